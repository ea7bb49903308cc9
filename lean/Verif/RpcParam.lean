import Verif.Rpc
import Verif.OptStore
import Verif.Record
/-
Model of the parameters of remote calls: /repo/daemon/remote/XmlRpc.cpp PrepareParams (850-868), XmlNextValue (870-883),
NextParamAsInt (885-932), NextParamAsBool (934-996), NextParamAsStr (998-1050), DecodeStr (1078-1088), and what editqueue
(2079-2136), append (2144-2241), saveconfig (2668-2688), editserver (2922-2962), rate (1172-1183) and scheduleresume (1128-1142) read.

The request is the text from the pointer `m_requestPtr` on; `none` is a pointer behind the terminating zero, and the outcome `none` of a
command means that memory behind the text is read. A value is given back by writing a zero behind it; that zero is always before the
pointer, so it is never read again.

What is simplified: `%i` of numbers and `atoi` are those of the models CStr and OptStore (numbers which do not fit wrap around).
-/
namespace Verif.RpcParam
open CStr

/-- How the parameters are sent: HTTP method GET with the protocol JSON or XML, POST with JSON, POST with XML. -/
inductive Mode where
  | get (json : Bool)
  | json
  | xml
deriving DecidableEq, Repr

/-- `ptr + k`. -/
def skip (k : Nat) (s : Bytes) : Option Bytes := if k ≤ s.length then some (s.drop k) else none

/-- WebUtil::XmlFindTag (Util.cpp:915-938): where the text of the first such tag begins, and its length. -/
def findAt (tag xml : Bytes) : Option (Nat × Nat) :=
  let body := fun (f : Bytes × Bytes) => (Rpc.split (lit "</" ++ tag ++ lit ">") f.2).map (fun c => (f.1.length + tag.length + 2, c.1.length))
  match Rpc.split (lit "<" ++ tag ++ lit "/>") xml, Rpc.split (lit "<" ++ tag ++ lit ">") xml with
  | none, none => none
  | some e, none => some (e.1.length, 0)
  | some e, some f => if e.1.length < f.1.length then some (e.1.length, 0) else body f
  | none, some f => body f

/-- XmlCommand::XmlNextValue (XmlRpc.cpp:870-883). -/
def xmlNext (tag s : Bytes) : Option (Nat × Nat) :=
  match findAt (lit "value") s with
  | none => none
  | some v =>
    match findAt tag (s.drop v.1) with
    | none => none
    | some c => if c.1 ≤ v.2 then some (v.1 + c.1, c.2) else none

/-- `strchr("-+0123456789", c)`. -/
def numeric (c : UInt8) : Bool := c == 45 || c == 43 || isDigit c

/-- The next parameter of a text in the form `name=value&`: what is behind the first `=`. -/
def afterEq (s : Bytes) : Option Bytes :=
  match s.dropWhile (· != 61) with
  | [] => none
  | _ :: t => some t

/-- A number in XML (XmlRpc.cpp:916-931). `k`: the length of the tag. -/
def xmlInt (s : Bytes) (k : Nat) (c : Nat × Nat) : Option Int × Option Bytes :=
  match s.drop c.1 with
  | [] => (none, some s)
  | b :: t => if numeric b then (some (OptStore.intOf (b :: t)), skip (c.1 + c.2 + k) s) else (none, some s)

/-- XmlCommand::NextParamAsInt (XmlRpc.cpp:885-932): the number, if there is one, and the pointer afterwards. -/
def nextInt (m : Mode) (s : Bytes) : Option Int × Option Bytes :=
  match m with
  | .get _ =>
    match afterEq s with
    | none => (none, some s)
    | some t => (some (OptStore.intOf t), some (t.dropWhile (fun c => numeric c || c == 38)))
  | .json =>
    match JsonText.nextValue s with
    | some (b :: v, rest) => if numeric b then (some (OptStore.intOf (b :: v ++ rest)), skip 1 rest) else (none, some s)
    | _ => (none, some s)
  | .xml =>
    match xmlNext (lit "i4") s with
    | some c => xmlInt s 4 c
    | none =>
      match xmlNext (lit "int") s with
      | some c => xmlInt s 5 c
      | none => (none, some s)

/-- XmlCommand::NextParamAsStr (XmlRpc.cpp:998-1050). -/
def nextStr (m : Mode) (s : Bytes) : Option Bytes × Option Bytes :=
  match m with
  | .get _ =>
    match afterEq s with
    | none => (none, some s)
    | some t => (some (t.takeWhile (· != 38)), some ((t.dropWhile (· != 38)).drop 1))
  | .json =>
    match JsonText.nextValue s with
    | none => (none, some s)
    | some (v, rest) =>
      if v.length < 2 || v.head? != some 34 || v.getLast? != some 34 then (none, some s)
      else (some ((v.drop 1).take (v.length - 2)), skip 1 rest)
  | .xml =>
    match xmlNext (lit "string") s with
    | none => (none, some s)
    | some c => (some ((s.drop c.1).take c.2), skip (c.1 + c.2 + 8) s)

/-- XmlCommand::NextParamAsBool (XmlRpc.cpp:934-996). -/
def nextBool (m : Mode) (s : Bytes) : Option Bool × Option Bytes :=
  match m with
  | .get json =>
    match nextStr m s with
    | (none, p) => (none, p)
    | (some v, p) =>
      if json then
        if startsWith (lit "true") v then (some true, p)
        else if startsWith (lit "false") v then (some false, p)
        else (none, p)
      else (some (v.head? == some 49), p)
  | .json =>
    match JsonText.nextValue s with
    | none => (none, some s)
    | some (v, rest) =>
      if v = lit "true" then (some true, skip 1 rest)
      else if v = lit "false" then (some false, skip 1 rest)
      else (none, some s)
  | .xml =>
    match xmlNext (lit "boolean") s with
    | none => (none, some s)
    | some c => (some ((s.drop c.1).head? == some 49), skip (c.1 + c.2 + 9) s)

/-- XmlCommand::DecodeStr (XmlRpc.cpp:1078-1088). -/
def decode (m : Mode) (s : Bytes) : Option Bytes :=
  match m with
  | .get true => JsonText.jsonDecode s
  | .get false => XmlText.xmlDecode s
  | .json => JsonText.jsonDecode s
  | .xml => XmlText.xmlDecode s

/-- XmlCommand::PrepareParams (XmlRpc.cpp:850-868) without the callback function of JSONP. -/
def prepare (m : Mode) (s : Bytes) : Bytes :=
  match m with
  | .json =>
    match Rpc.split (lit "\"params\"") s with
    | none => []
    | some r => r.2
  | _ => s

/-- A read with a pointer. -/
def ask {α : Type} (f : Bytes → Option α × Option Bytes) (p : Option Bytes) : Option (Option α × Option Bytes) := p.map f

/-- What a command does. -/
inductive Outcome (α : Type) where
  | error (code : Nat)
  | call (x : α)
deriving DecidableEq, Repr

/-- `while (NextParamAsInt(&id))` (XmlRpc.cpp:2125-2130). -/
def ints (m : Mode) : (fuel : Nat) → Option Bytes → Option (List Int)
  | 0, _ => some []
  | k + 1, p =>
    match ask (nextInt m) p with
    | none => none
    | some (none, _) => some []
    | some (some i, p) => (ints m k p).map (i :: ·)

/-- EditCommandNameMap (XmlRpc.cpp:2020-2073). -/
def actions : List String :=
  ["FileMoveOffset", "FileMoveTop", "FileMoveBottom", "FilePause", "FileResume", "FileDelete", "FilePauseAllPars", "FilePauseExtraPars",
   "FileReorder", "FileSplit", "GroupMoveOffset", "GroupMoveTop", "GroupMoveBottom", "GroupMoveBefore", "GroupMoveAfter", "GroupPause",
   "GroupResume", "GroupDelete", "GroupParkDelete", "GroupDupeDelete", "GroupFinalDelete", "GroupPauseAllPars", "GroupPauseExtraPars",
   "GroupSetPriority", "GroupSetCategory", "GroupApplyCategory", "GroupMerge", "GroupSetParameter", "GroupSetName", "GroupSetDupeKey",
   "GroupSetDupeScore", "GroupSetDupeMode", "GroupSort", "GroupSortFiles", "PostDelete", "HistoryDelete", "HistoryFinalDelete",
   "HistoryReturn", "HistoryProcess", "HistoryRedownload", "HistoryRetryFailed", "HistorySetParameter", "HistorySetDupeKey",
   "HistorySetDupeScore", "HistorySetDupeMode", "HistorySetDupeBackup", "HistoryMarkBad", "HistoryMarkGood", "HistoryMarkSuccess",
   "HistorySetCategory", "HistorySetName"]

/-- A call of EditList. -/
structure Edit where
  action : String
  args : Bytes
  ids : List Int
deriving DecidableEq, Repr

/-- EditQueueXmlCommand::Execute (XmlRpc.cpp:2079-2136). -/
def editQueue (m : Mode) (s : Bytes) : Option (Outcome Edit) := do
  let (c, p) ← ask (nextStr m) (some s)
  match c with
  | none => some (.error 2)
  | some c =>
    match actions.find? (fun a => Rpc.eqNoCase c (lit a)) with
    | none => some (.error 3)
    | some action =>
      let (off, p) ← ask (nextInt m) p
      let (a, p) ← ask (nextStr m) p
      match a with
      | none => some (.error 2)
      | some a =>
        let a ← decode m a
        let a := match off with
          | some o => if action = "FileMoveOffset" ∨ action = "GroupMoveOffset" then decInt o else a
          | none => a
        let ids ← ints m (s.length + 1) p
        some (.call ⟨action, a, ids⟩)

/-- A pair of texts (XmlRpc.cpp:2230-2238, 2675-2678); in JSON the pairs of `saveconfig` are objects with two fields, `names`. -/
def pair (m : Mode) (names : Bool) (p : Option Bytes) : Option (Option (Bytes × Bytes) × Option Bytes) := do
  let (d, p) ← if names then ask (nextStr m) p else some (some [], p)
  match d with
  | none => some (none, p)
  | some _ =>
    let (n, p) ← ask (nextStr m) p
    match n with
    | none => some (none, p)
    | some n =>
      let (d, p) ← if names then ask (nextStr m) p else some (some [], p)
      match d with
      | none => some (none, p)
      | some _ =>
        let (v, p) ← ask (nextStr m) p
        match v with
        | none => some (none, p)
        | some v => some (some (n, v), p)

/-- The protocol is JSON. -/
def isJson : Mode → Bool
  | .get j => j
  | .json => true
  | .xml => false

/-- SaveConfigXmlCommand::Execute (XmlRpc.cpp:2668-2688): the options which are saved. -/
def saveConfig (m : Mode) : (fuel : Nat) → Option Bytes → Option (List (Bytes × Bytes))
  | 0, _ => some []
  | k + 1, p =>
    match pair m (isJson m) p with
    | none => none
    | some (none, _) => some []
    | some (some (n, v), p) =>
      match decode m n, decode m v with
      | some n, some v => (saveConfig m k p).map ((n, v) :: ·)
      | _, _ => none

/-- What `append` adds. -/
structure Append where
  name : Bytes
  content : Bytes
  category : Bytes
  priority : Int
  top : Bool
  paused : Bool
  dupeKey : Bytes
  dupeScore : Int
  dupeMode : String
  params : List (Bytes × Bytes)
deriving DecidableEq, Repr

/-- The parameters (XmlRpc.cpp:2225-2239): they are not decoded. `some none`: an error. -/
def paramLoop (m : Mode) : (fuel : Nat) → Option Bytes → List (Bytes × Bytes) → Option (Option (List (Bytes × Bytes)))
  | 0, _, ps => some (some ps)
  | k + 1, p, ps =>
    match ask (nextStr m) p with
    | none => none
    | some (none, _) => some (some ps)
    | some (some n, p) =>
      match ask (nextStr m) p with
      | none => none
      | some (none, _) => some none
      | some (some v, p) => paramLoop m k p (Record.setParameter ps n v)

/-- The modes (XmlRpc.cpp:2209-2217). -/
def modeOf (s : Bytes) : Option String := ["score", "all", "force"].find? (fun w => Rpc.eqNoCase s (lit w))

/-- The end of DownloadXmlCommand::Execute (XmlRpc.cpp:2192-2239). -/
def appendRest (m : Mode) (v13 : Bool) (fuel : Nat) (a : Append) (p : Option Bytes) : Option (Outcome Append) := do
  let (paused, p) ← ask (nextBool m) p
  match paused with
  | none => if v13 then some (.error 2) else some (.call a)
  | some paused =>
    let (k, p) ← ask (nextStr m) p
    match k with
    | none => some (.error 2)
    | some k =>
      let k ← decode m k
      let (sc, p) ← ask (nextInt m) p
      match sc with
      | none => some (.error 2)
      | some sc =>
        let (dm, p) ← ask (nextStr m) p
        match dm.bind modeOf with
        | none => some (.error 2)
        | some dm =>
          let a := { a with paused := paused, dupeKey := k, dupeScore := sc, dupeMode := dm }
          if v13 then
            let ps ← paramLoop m fuel p []
            match ps with
            | none => some (.error 2)
            | some ps => some (.call { a with params := ps })
          else some (.call a)

/-- DownloadXmlCommand::Execute until the file or the URL is added (XmlRpc.cpp:2144-2239). The content is decoded once; in the old
form of the call (`v13` is false) the second text is the category. -/
def append (m : Mode) (s : Bytes) : Option (Outcome Append) := do
  let (f, p) ← ask (nextStr m) (some s)
  match f with
  | none => some (.error 2)
  | some f =>
    let (c, p) ← ask (nextStr m) p
    match c with
    | none => some (.error 2)
    | some c =>
      let (cat, p) ← ask (nextStr m) p
      let f ← decode m f
      let k ← decode m (cat.getD c)
      let (pr, p) ← ask (nextInt m) p
      let (top, p) ← ask (nextBool m) p
      match top with
      | none => some (.error 2)
      | some top =>
        let (x, p) ← if cat.isSome then some (some c, p) else ask (nextStr m) p
        match x with
        | none => some (.error 2)
        | some x =>
          let x ← decode m x
          appendRest m cat.isSome (s.length + 1)
            { name := f, content := x, category := k, priority := pr.getD 0, top := top, paused := false, dupeKey := [], dupeScore := 0,
              dupeMode := "score", params := [] } p

/-- EditServerXmlCommand::Execute (XmlRpc.cpp:2922-2962): the servers which are switched on or off, and whether an error is reported. -/
def servers (m : Mode) : (fuel : Nat) → (first : Bool) → Option Bytes → Option (List (Int × Bool) × Bool)
  | 0, first, _ => some ([], first)
  | k + 1, first, p =>
    match ask (nextInt m) p with
    | none => none
    | some (none, _) => some ([], first)
    | some (some i, p) =>
      match ask (nextBool m) p with
      | none => none
      | some (none, _) => some ([], true)
      | some (some b, p) => (servers m k false p).map (fun r => ((i, b) :: r.1, r.2))

/-- SetDownloadRateXmlCommand::Execute (XmlRpc.cpp:1172-1183): the limit in bytes, where the product of `int` wraps around. -/
def rate (m : Mode) (s : Bytes) : Outcome Int :=
  match (nextInt m s).1 with
  | none => .error 2
  | some r => if r < 0 then .error 2 else .call ((r * 1024).bmod (2 ^ 32))

/-- ScheduleResumeXmlCommand::Execute (XmlRpc.cpp:1128-1142): after how many seconds. -/
def scheduleResume (m : Mode) (s : Bytes) : Outcome Int :=
  match (nextInt m s).1 with
  | none => .error 2
  | some r => if r < 0 then .error 2 else .call r

end Verif.RpcParam
