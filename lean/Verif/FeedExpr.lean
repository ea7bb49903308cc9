import Verif.CStr
/-
Model of the expressions of feed filters: FeedFilter::Rule::MatchExpression
(/repo/daemon/feed/FeedFilter.cpp:817-870), the reduction of strings it uses (Util::ReduceStr,
/repo/daemon/util/Util.cpp:404-420), the recognition of operators and of negated terms by
FeedFilter::Term::Compile (FeedFilter.cpp:179-205) and Term::Match (FeedFilter.cpp:27-45).
-/
namespace Verif.FeedExpr
open CStr

/-- One character of the string `expr` of MatchExpression (FeedFilter.cpp:825-842). -/
inductive Sym where
  | t | f | lp | rp | bar
deriving DecidableEq, Repr

/-- The first occurrence of `from` is replaced with `to` (one pass of the loop of ReduceStr,
Util.cpp:410-417: strstr, then the rest of the string is moved). `none` if there is none. -/
def replaceFirst (src dst : List Sym) : List Sym → Option (List Sym)
  | [] => if src = [] then some dst else none
  | c :: w =>
    if src.isPrefixOf (c :: w) then some (dst ++ (c :: w).drop src.length)
    else (replaceFirst src dst w).map (c :: ·)

/-- Util::ReduceStr (Util.cpp:404-420); the first argument bounds the number of replacements (each one
makes the string shorter, so its length is enough). -/
def reduceStr (src dst : List Sym) : Nat → List Sym → List Sym
  | 0, w => w
  | n + 1, w =>
    match replaceFirst src dst w with
    | none => w
    | some w' => reduceStr src dst n w'

/-- The thirteen reductions in their order (FeedFilter.cpp:853-865). -/
def rules : List (List Sym × List Sym) :=
  [([.t, .t], [.t]), ([.t, .f], [.f]), ([.f, .t], [.f]), ([.f, .f], [.f]),
   ([.bar, .bar], [.bar]), ([.lp, .bar], [.lp]), ([.bar, .rp], [.rp]),
   ([.t, .bar, .t], [.t]), ([.t, .bar, .f], [.t]), ([.f, .bar, .t], [.t]), ([.f, .bar, .f], [.f]),
   ([.lp, .t, .rp], [.t]), ([.lp, .f, .rp], [.f])]

/-- One pass of the loop (FeedFilter.cpp:848-866). -/
def round (w : List Sym) : List Sym :=
  rules.foldl (fun w r => reduceStr r.1 r.2 w.length w) w

/-- The loop (FeedFilter.cpp:848-866): until the length does not change. The first argument bounds the
number of passes. -/
def reduce : Nat → Nat → List Sym → List Sym
  | 0, _, w => w
  | n + 1, oldLen, w => if w.length = oldLen then w else reduce n w.length (round w)

/-- The result of MatchExpression for the string of term values (FeedFilter.cpp:847-869). -/
def matchSyms (w : List Sym) : Bool := reduce (w.length + 2) 0 w = [.t]

/-- A term as it is compiled (FeedFilter.cpp:179-205): a bracket, the operator `|`, or a condition with
its sign. The rest of the condition (field, command and parameter) is kept as text. -/
inductive Term where
  | lp | rp | bar
  | cond (positive : Bool) (body : Bytes)
deriving DecidableEq, Repr

/-- Term::Compile (FeedFilter.cpp:179-205). A sign in front of a bracket or of `|` is read and
forgotten. Tokens contain no blank, so that the second character decides by being absent. -/
def compileTerm (token : Bytes) : Term :=
  let positive := token.head? != some 45
  let rest := if token.head? = some 45 ∨ token.head? = some 43 then token.tail else token
  if rest = [40] then .lp
  else if rest = [41] then .rp
  else if rest = [124] then .bar
  else .cond positive rest

/-- Term::Match (FeedFilter.cpp:27-45) and the loop of MatchExpression over the terms
(FeedFilter.cpp:822-845); `val` is the outcome of MatchValue. Unknown fields do not occur: such a rule
is not valid (FeedFilter.cpp:263). -/
def symOf (val : Bytes → Bool) : Term → Sym
  | .lp => .lp
  | .rp => .rp
  | .bar => .bar
  | .cond positive body => if positive == val body then .t else .f

/-- MatchExpression (FeedFilter.cpp:817-870). -/
def matchTerms (val : Bytes → Bool) (terms : List Term) : Bool := matchSyms (terms.map (symOf val))

end Verif.FeedExpr
