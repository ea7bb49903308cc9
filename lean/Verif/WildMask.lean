import Verif.CStr
/-
Model of the wildcard masks of /repo/daemon/util/Util.cpp:1562-1708 (WildMask), used by the feed
filters (FeedFilter.cpp:122, 152), the authorised addresses of the web-interface (WebServer.cpp:299),
the aliases of categories (Options.cpp:266) and the clean-up of log files (Log.cpp:326).

A pointer into the text is modelled by the rest of the text together with its distance from the
start; the terminating zero of a C string is the end of the list. `tolower` is the one of the C locale.
-/
namespace Verif.WildMask
open CStr

/-- tolower in the C locale. -/
def lower (b : UInt8) : UInt8 := if 65 ≤ b.toNat ∧ b.toNat ≤ 90 then UInt8.ofNat (b.toNat + 32) else b

/-- One recorded position: m_wildStart[i] and m_wildLen[i] (an int, which may become negative). -/
structure Ref where
  start : Nat
  len : Int
deriving DecidableEq, Repr

/-- The local variables of WildMask::Match (Util.cpp:1573-1585). `refs` is m_wildStart/m_wildLen up to
m_wildCount, the last one first. -/
structure S where
  pat : Bytes
  str : Bytes
  pos : Nat
  wpos : Bytes
  spos : Bytes
  sidx : Nat
  refs : List Ref
  qmark : Bool
  star : Bool
deriving DecidableEq, Repr

/-- ExpandArray and the two assignments after it (Util.cpp:1562-1567, 1593-1595, 1630-1632, 1652-1654). -/
def push (start : Nat) (r : List Ref) : List Ref := ⟨start, 0⟩ :: r

/-- `m_wildLen[m_wildCount-1] = (int)(str - (text + m_wildStart[m_wildCount-1]))`
(Util.cpp:1601, 1615, 1626, 1664, 1669, 1690). With m_wildCount = 0 this would write outside of the
array; the flags `qmark` and `star` are set only after an element was added, so the first case stands
for nothing. -/
def close (pos : Nat) : List Ref → List Ref
  | [] => []
  | r :: rs => ⟨r.start, (pos : Int) - r.start⟩ :: rs

/-- `m_wildLen[m_wildCount-1] = strlen(str)` (Util.cpp:1639). -/
def setLen (len : Nat) : List Ref → List Ref
  | [] => []
  | r :: rs => ⟨r.start, (len : Int)⟩ :: rs

/-- Does a mask character other than the star accept a text character? (Util.cpp:1605-1606, and the
conditions of the branches 1648 and 1661). -/
def accepts (p c : UInt8) : Bool := lower p == lower c || p == 63 || (p == 35 && isDigit c)

/-- The first loop (Util.cpp:1587-1611) and the statement after it (1613-1617): up to the first star.
`none` means `return false`. The terminating zero of the mask is equal to no character of the text. -/
def prefixLoop (wants : Bool) (pat str : Bytes) (pos : Nat) (refs : List Ref) (qmark : Bool) :
    Option S :=
  match str, pat with
  | [], pat =>
    some { pat := pat, str := [], pos := pos, wpos := [], spos := [], sidx := 0,
           refs := if wants && qmark then close pos refs else refs,
           qmark := if wants && qmark then false else qmark, star := false }
  | _ :: _, [] => none
  | c :: str', p :: pat' =>
    if p = 42 then
      some { pat := p :: pat', str := c :: str', pos := pos, wpos := [], spos := [], sidx := 0,
             refs := if wants && qmark then close pos refs else refs,
             qmark := if wants && qmark then false else qmark, star := false }
    else
      let wild := wants && (p == 63 || p == 35)
      let refs' := if wild then (if qmark then refs else push pos refs)
                   else if wants && qmark then close pos refs else refs
      let qmark' := if wild then true else if wants && qmark then false else qmark
      if accepts p c then prefixLoop wants pat' str' (pos + 1) refs' qmark' else none

/-- Result of one pass of the second loop. -/
inductive Pass where
  | stop (res : Bool) (refs : List Ref)
  | next (s : S)
deriving DecidableEq, Repr

/-- `while (*pat == '*') pat++` (Util.cpp:1700-1703). -/
def skipStars : Bytes → Bytes
  | [] => []
  | p :: pat => if p = 42 then skipStars pat else p :: pat

/-- The statements after the second loop (Util.cpp:1688-1705), with `*str == 0`. -/
def finish (wants : Bool) (s : S) : Pass :=
  let refs := if wants && s.qmark then close s.pos s.refs else s.refs
  let refs := if s.pat.head? = some 42 ∧ wants = true ∧ s.star = false then push s.pos refs else refs
  .stop (skipStars s.pat).isEmpty refs

/-- The last branch of the second loop (Util.cpp:1675-1685): back to the last star, one character
further. -/
def backtrack (wants : Bool) (s : S) : S :=
  { s with
    pat := s.wpos
    str := s.spos
    pos := s.sidx
    spos := s.spos.tail
    sidx := s.sidx + 1
    refs := if wants && s.qmark then s.refs.tail else s.refs
    qmark := if wants && s.qmark then false else s.qmark
    star := true }

/-- The branch for a star (Util.cpp:1621-1647). -/
def onStar (wants : Bool) (s : S) (pat' : Bytes) : Pass :=
  let refs := if wants && s.qmark then close s.pos s.refs else s.refs
  let qmark := if wants && s.qmark then false else s.qmark
  let refs := if wants && !s.star then push s.pos refs else refs
  let star := if wants && !s.star then true else s.star
  if pat' = [] then
    .stop true (if wants && star then setLen s.str.length refs else refs)
  else
    .next { s with pat := pat', wpos := pat', spos := s.str.tail, sidx := s.pos + 1,
                   refs := refs, qmark := qmark, star := star }

/-- One pass of the second loop (Util.cpp:1619-1686). -/
def pass (wants : Bool) (s : S) : Pass :=
  match s.str, s.pat with
  | [], _ => finish wants s
  | c :: str', p :: pat' =>
    if p = 42 then onStar wants s pat'
    else if p == 63 || (p == 35 && isDigit c) then
      .next { s with pat := pat', str := str', pos := s.pos + 1,
                     refs := if wants && !s.qmark then push s.pos s.refs else s.refs,
                     qmark := if wants && !s.qmark then true else s.qmark }
    else if lower p == lower c then
      .next { s with pat := pat', str := str', pos := s.pos + 1,
                     refs := if wants && s.qmark then close s.pos s.refs
                             else if wants && s.star then close s.pos s.refs else s.refs,
                     qmark := if wants && s.qmark then false else s.qmark,
                     star := if !(wants && s.qmark) && (wants && s.star) then false else s.star }
    else .next (backtrack wants s)
  | _ :: _, [] => .next (backtrack wants s)

/-- The second loop; `none` if the given number of passes was not enough. -/
def loop (wants : Bool) : Nat → S → Option (Bool × List Ref)
  | 0, _ => none
  | n + 1, s =>
    match pass wants s with
    | .stop res refs => some (res, refs)
    | .next s' => loop wants n s'

/-- A number of passes which is always enough (`loop_ends` in WildMaskProps). -/
def passes (pat text : Bytes) : Nat := (pat.length + 1) * ((text.length + 1) * (text.length + 1)) + 1

/-- WildMask::Match (Util.cpp:1571-1706): the result and the recorded positions in order. `none`
would mean that it does not end. -/
def run (wants : Bool) (mask text : Bytes) : Option (Bool × List Ref) :=
  match prefixLoop wants mask text 0 [] false with
  | none => some (false, [])
  | some s => (loop wants (passes mask text) s).map (fun r => (r.1, r.2.reverse))

/-- The result of WildMask::Match. -/
def matches? (mask text : Bytes) : Bool := ((run false mask text).map (·.1)).getD false

end Verif.WildMask
