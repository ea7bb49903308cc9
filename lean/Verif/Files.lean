import Verif.CStr
import Verif.WildMask
import Verif.FileName
/-
Model of moving and cleaning up the files of a download: /repo/daemon/util/FileSystem.cpp MoveFile (477-489),
CopyFile (491-518), DeleteFile (520-527), MakeUniqueFilename (436-475), DeleteDirectoryWithContent (626-662),
/repo/daemon/postprocess/Cleanup.cpp MoveController::MoveFiles (82-125) and
/repo/daemon/postprocess/Unpack.cpp UnpackController::Cleanup (700-784), FileHasRarSignature (680-698).

A directory is the list of its entries. What is inside of a subdirectory is one opaque number, 0 if it is
empty. Paths are shorter than 1024 bytes (`BString<1024>`). Nobody else changes the directories meanwhile.
What the operating system answers is a parameter.
-/
namespace Verif.Files
open CStr FileName

/-- An entry of a directory: a regular file with its contents or a subdirectory. -/
inductive Node where
  | file (data : Bytes)
  | dir (tree : Nat)
deriving DecidableEq, Repr

abbrev Dir := List (Bytes × Node)

/-- What a directory has under a name. -/
def get : Dir → Bytes → Option Node
  | [], _ => none
  | e :: d, n => if e.1 = n then some e.2 else get d n

def del (d : Dir) (n : Bytes) : Dir := d.filter (fun e => e.1 != n)

def put (d : Dir) (n : Bytes) (x : Node) : Dir := (n, x) :: del d n

/-- FileSystem::FileExists (FileSystem.cpp:529-547): true only for regular files. -/
def isFile : Option Node → Bool
  | some (.file _) => true
  | _ => false

/-- FileSystem::DirectoryExists (FileSystem.cpp:549-567). -/
def isDir : Option Node → Bool
  | some (.dir _) => true
  | _ => false

/-- Whether `remove` can remove it (FileSystem::DeleteFile, FileSystem.cpp:520-527): files and empty
directories. -/
def removable : Node → Bool
  | .file _ => true
  | .dir t => t == 0

/-- When `rename` is permitted: a file replaces a file, a directory replaces an empty directory. -/
def renameOk : (dst : Option Node) → (src : Node) → Bool
  | none, _ => true
  | some (.file _), .file _ => true
  | some (.dir t), .dir _ => t == 0
  | _, _ => false

/-- What the operating system does when a file has to be moved. `done`: `rename` works if it is permitted.
`error`: `rename` fails. `other`: the target is on another device (EXDEV); then `openIn`, `openOut`: the files
can be opened; `arrived`: how many bytes were read and written without an error, `none` if all; `removed`: the
source can be removed. -/
inductive Answer where
  | done
  | error
  | other (openIn openOut : Bool) (arrived : Option Nat) (removed : Bool)
deriving DecidableEq, Repr

/-- What FileSystem::CopyFile writes (FileSystem.cpp:507-512): what `Read` and `Write` return is not compared.
Reading a directory gives nothing. -/
def copied : Node → Option Nat → Bytes
  | .file d, none => d
  | .file d, some k => d.take k
  | .dir _, _ => []

/-- FileSystem::MoveFile with CopyFile (FileSystem.cpp:477-518) of the entry `x` named `n` in `src` to the
name `m` in `dst`: the result and both directories. -/
def moveFile (a : Answer) (x : Node) (n m : Bytes) (src dst : Dir) : Bool × Dir × Dir :=
  match a with
  | .done => if renameOk (get dst m) x then (true, del src n, put dst m x) else (false, src, dst)
  | .error => (false, src, dst)
  | .other openIn openOut arrived removed =>
    if !openIn then (false, src, dst)
    else if !openOut || isDir (get dst m) then (false, src, dst)
    else if removed && removable x then (true, del src n, put dst m (.file (copied x arrived)))
    else (false, src, put dst m (.file (copied x arrived)))

/-- The name which MakeUniqueFilename tries after `k` names were found to exist (FileSystem.cpp:441-472). -/
def numbered (base : Bytes) (k : Nat) : Bytes := if k = 0 then base else dupName base k

/-- The loop of FileSystem::MakeUniqueFilename (FileSystem.cpp:441-472) after `k` rounds. -/
def unique (d : Dir) (base : Bytes) : (fuel k : Nat) → Bytes
  | 0, k => numbered base k
  | f + 1, k => if isFile (get d (numbered base k)) then unique d base f (k + 1) else numbered base k

/-- FileSystem::MakeUniqueFilename (FileSystem.cpp:436-475). More rounds than entries are not needed. -/
def uniqueName (d : Dir) (base : Bytes) : Bytes := unique d base (d.length + 1) 0

/-- `filename[0] == '.'` (Cleanup.cpp:101, Unpack.cpp:728). -/
def hidden (n : Bytes) : Bool := n.head? == some 46

/-- The state while files are moved. -/
structure St where
  ok : Bool
  src : Dir
  dst : Dir
deriving DecidableEq, Repr

/-- The result of moving one file (Cleanup.cpp:108-113, Unpack.cpp:730-735). -/
def after (st : St) (n : Bytes) (r : Bool × Dir × Dir) : St :=
  ⟨st.ok && (r.1 || hidden n), r.2.1, r.2.2⟩

/-- The body of the loop of MoveController::MoveFiles (Cleanup.cpp:95-114). -/
def moveStep (ans : Bytes → Answer) (st : St) (e : Bytes × Node) : St :=
  after st e.1
    (moveFile (ans e.1) e.2 e.1 (uniqueName st.dst (makeValid false e.1)) st.src st.dst)

/-- MoveController::MoveFiles (Cleanup.cpp:82-121) after the directory was created. `stuck`: the entries
which DeleteDirectoryWithContent can not delete. -/
def moveFiles (ans : Bytes → Answer) (stuck : Bytes → Bool) (inter dest : Dir) : St :=
  let st := inter.foldl (moveStep ans) ⟨true, inter, dest⟩
  if st.ok then { st with src := st.src.filter (fun e => stuck e.1) } else st

/-- DeleteFile before the move (Unpack.cpp:725-726). -/
def clear (delOk : Bytes → Bool) (d : Dir) (m : Bytes) : Dir :=
  match get d m with
  | some x => if delOk m && removable x then del d m else d
  | none => d

/-- The body of the first loop of UnpackController::Cleanup (Unpack.cpp:719-737). -/
def unpackStep (ans : Bytes → Answer) (delOk : Bytes → Bool) (st : St) (e : Bytes × Node) : St :=
  after st e.1
    (moveFile (ans e.1) e.2 e.1 (makeValid false e.1) st.src (clear delOk st.dst (makeValid false e.1)))

/-- `.*\.rar$` without case (Unpack.cpp:756). -/
def isRar (n : Bytes) : Bool := (lit ".rar").isSuffixOf (n.map WildMask.lower)

def digit (c : UInt8) : Bool := decide (48 ≤ c) && decide (c ≤ 57)

/-- `.*\.[r-z][0-9][0-9]$` without case (Unpack.cpp:757), on the reversed lower-case name. -/
def rarSeqRev : Bytes → Bool
  | a :: b :: c :: d :: _ => digit a && digit b && (decide (114 ≤ c) && decide (c ≤ 122)) && d == 46
  | _ => false

def isRarSeq (n : Bytes) : Bool := rarSeqRev (n.map WildMask.lower).reverse

/-- `.*\.7z$|.*\.7z\.[0-9]+$` without case (Unpack.cpp:758). -/
def isSevenZip (n : Bytes) : Bool :=
  let r := (n.map WildMask.lower).reverse
  (lit ".7z").reverse.isPrefixOf r ||
    (!(r.takeWhile digit).isEmpty && (lit ".7z.").reverse.isPrefixOf (r.dropWhile digit))

/-- `[a-z,0-9]` without case, of a lower-case letter. -/
def splitChar (c : UInt8) : Bool := (decide (97 ≤ c) && decide (c ≤ 122)) || c == 44 || digit c

/-- `.*\.[a-z,0-9]{3}\.[0-9]{3}$` without case (Unpack.cpp:759, 434), on the reversed lower-case name. -/
def splitRev : Bytes → Bool
  | a :: b :: c :: d :: e :: f :: g :: h :: _ =>
    digit a && digit b && digit c && d == 46 && splitChar e && splitChar f && splitChar g && h == 46
  | _ => false

def isSplit (n : Bytes) : Bool := splitRev (n.map WildMask.lower).reverse

/-- FileHasRarSignature (Unpack.cpp:680-698): the file has at least eight bytes and starts with the signature
of rar 4 or 5. It can be read. -/
def rarSignature (data : Bytes) : Bool :=
  decide (8 ≤ data.length) &&
  (([82, 97, 114, 33, 26, 7, 0] : Bytes).isPrefixOf data || ([82, 97, 114, 33, 26, 7, 1, 0] : Bytes).isPrefixOf data)

/-- The settings and facts on which UnpackController::Cleanup depends. `useFinal`: there is a final directory;
`split`: m_hasSplittedFiles; `joined`: m_joinedFiles. m_interDir is never set. -/
structure Cfg where
  unpackOk : Bool
  cleanupDisk : Bool
  split : Bool
  joined : List Bytes
  useFinal : Bool

/-- Which files are deleted as archives (Unpack.cpp:766-770). -/
def archive (c : Cfg) (extracted : List Bytes) (e : Bytes × Node) : Bool :=
  match e.2 with
  | .dir _ => false
  | .file data =>
    !extracted.contains e.1 &&
      (isRar e.1 || isSevenZip e.1 || (isRarSeq e.1 && rarSignature data) ||
        (c.split && isSplit e.1 && c.joined.contains e.1))

/-- The directories after UnpackController::Cleanup. -/
structure Res where
  ok : Bool
  unpack : Dir
  dest : Dir
  final : Dir
deriving DecidableEq, Repr

/-- The deletion of archives (Unpack.cpp:752-780). -/
def deleteArchives (c : Cfg) (delOk : Bytes → Bool) (extracted : List Bytes) (d : Dir) : Dir :=
  d.filter (fun e => !(archive c extracted e && delOk e.1))

/-- UnpackController::Cleanup (Unpack.cpp:700-784). `delOk`: the files which can be deleted; `stuck`: the
entries which DeleteDirectoryWithContent can not delete. A final directory which was created and not used is
removed only if it is empty and is left out. -/
def unpackCleanup (c : Cfg) (ans : Bytes → Answer) (delOk stuck : Bytes → Bool) (unpack dest final : Dir) : Res :=
  let st : St := if c.unpackOk
    then unpack.foldl (unpackStep ans delOk) ⟨true, unpack, if c.useFinal then final else dest⟩
    else ⟨true, unpack, if c.useFinal then final else dest⟩
  let extracted := if c.unpackOk then unpack.map (·.1) else []
  let left := if st.ok then st.src.filter (fun e => stuck e.1) else st.src
  let dest1 := if c.useFinal then dest else st.dst
  let final1 := if c.useFinal then st.dst else final
  let dest2 := if c.unpackOk && st.ok && c.cleanupDisk then deleteArchives c delOk extracted dest1 else dest1
  ⟨st.ok, left, dest2, final1⟩

end Verif.Files
