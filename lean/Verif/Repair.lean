import Verif.ParName
/-
Model of the request for more par2-files: /repo/daemon/postprocess/Repair.cpp RequestMorePars (314-397) and
FindPars (399-470).
-/
namespace Verif.Repair
open CStr WildMask

/-- What is used of a FileInfo (DownloadInfo.h:119-230). `id` stands for the object itself. -/
structure PFile where
  id : Nat
  name : Bytes
  confirmed : Bool
  par : Bool
  paused : Bool
  extra : Bool
deriving DecidableEq, Repr

/-- RepairController::BlockInfo (Repair.h:83-90). -/
structure Block where
  file : PFile
  count : Int
deriving DecidableEq, Repr

/-- `useFile` (Repair.cpp:423-444). `mainBase`: the base name of the main par2-file in lower case. -/
def useFile (strict exact : Bool) (parName mainBase : Bytes) (f : PFile) : Bool :=
  if exact then ParName.same f.confirmed f.name (FileName.baseName parName)
  else if strict then
    let lo := (f.name.take 1023).map lower
    (after ((mainBase ++ lit ".par2").take 1023) lo).isSome || (after ((mainBase ++ lit ".vol").take 1023) lo).isSome
  else true

/-- The loop of FindPars (Repair.cpp:417-469): the blocks collected so far and their number. -/
def findLoop (use : PFile → Bool) : List PFile → List Block → Int → List Block × Int
  | [], bl, n => (bl, n)
  | f :: fs, bl, n =>
    match ParName.parse f.confirmed f.name with
    | none => findLoop use fs bl n
    | some x =>
      if 0 < x.2 ∧ use f = true ∧ bl.any (fun b => b.file.id == f.id) = false then
        findLoop use fs (bl ++ [⟨f, x.2⟩]) (n + x.2)
      else findLoop use fs bl n

/-- RepairController::FindPars (Repair.cpp:399-470). `BString::Set` with the length 0 takes the whole text. -/
def findPars (files : List PFile) (parName : Bytes) (bl : List Block) (strict exact : Bool) : List Block × Int :=
  match ParName.parse true (FileName.baseName parName) with
  | none => (bl, 0)
  | some x =>
    let base := FileName.baseName parName
    let mainBase := ((if x.1 = 0 then base.take 1023 else base.take x.1).map lower)
    findLoop (useFile strict exact parName mainBase) files bl 0

/-- The three passes (Repair.cpp:323-334). Numbers of blocks are not limited to 32 bits. -/
def available (files : List PFile) (parName : Bytes) (needed : Int) : List Block × Int :=
  let p1 := findPars files parName [] true true
  let p2 := if p1.2 < needed then
      let q := findPars files parName p1.1 true false
      (q.1, p1.2 + q.2)
    else p1
  if p2.2 < needed then
    let q := findPars files parName p2.1 false false
    (q.1, p2.2 + q.2)
  else p2

/-- Blocks are collected from the smallest (Repair.cpp:344-350); the last one is in front. -/
def collect : List Block → List Block → Int → List Block × Int
  | [], sel, needed => (sel, needed)
  | b :: l, sel, needed => if 0 < needed then collect l (b :: sel) (needed - b.count) else (sel, needed)

/-- Superfluous blocks are discarded (Repair.cpp:352-365). -/
def discard : List Block → Int → List Block × Int
  | [], needed => ([], needed)
  | b :: l, needed =>
    if needed + b.count ≤ 0 then discard l (needed + b.count)
    else
      let r := discard l needed
      (b :: r.1, r.2)

/-- The result of a request: the files, the number of blocks which were found and the returned value. -/
structure Result where
  files : List PFile
  found : Int
  ok : Bool
deriving DecidableEq, Repr

/-- A file is unpaused (Repair.cpp:367-376). -/
def unpause (sel : List Block) (f : PFile) : PFile :=
  if sel.any (fun b => b.file.id == f.id) && f.paused then { f with paused := false, extra := true } else f

/-- RepairController::RequestMorePars (Repair.cpp:314-397). `sort`: std::sort by the number of blocks; the order of
equal ones is open. -/
def requestMore (sort : List Block → List Block) (files : List PFile) (parName : Bytes) (needed : Int) : Result :=
  let av := available files parName needed
  let sorted := sort av.1
  if needed ≤ av.2 then
    let c := collect sorted [] needed
    let d := discard c.1 c.2
    let files := files.map (unpause d.1)
    ⟨files, av.2, d.2 ≤ 0 || files.any (fun f => f.par && !f.paused)⟩
  else ⟨files, av.2, needed ≤ 0 || files.any (fun f => f.par && !f.paused)⟩

end Verif.Repair
