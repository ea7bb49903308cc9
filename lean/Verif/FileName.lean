import Verif.CStr
import Verif.WildMask
/-
Model of names of files and directories: /repo/daemon/util/FileSystem.cpp BaseFileName (348-367),
ReservedChar (369-392), MakeValidFilename (395-434), MakeUniqueFilename (436-475) and
/repo/daemon/queue/DownloadInfo.cpp MakeNiceNzbName (196-207), BuildFinalDirName (244-270). The separators
are those of POSIX: PATH_SEPARATOR is `/`, ALT_PATH_SEPARATOR is `\`.
-/
namespace Verif.FileName
open CStr

/-- FileSystem::ReservedChar (FileSystem.cpp:369-392). -/
def reservedChar (c : UInt8) : Bool :=
  c.toNat < 32 || (lit "\"*/:<>?\\|").contains c

/-- The replacement of a character (FileSystem.cpp:399-410). -/
def validChar (allowSlashes : Bool) (c : UInt8) : UInt8 :=
  if reservedChar c then if allowSlashes && (c == 47 || c == 92) then 47 else 95 else c

/-- Trailing dots and blanks are removed (FileSystem.cpp:414-417). -/
def dropTrailing (s : Bytes) : Bytes := (s.reverse.dropWhile (fun c => c == 46 || c == 32)).reverse

/-- RESERVED_DEVICE_NAMES (FileSystem.cpp:25-27). -/
def deviceNames : List String :=
  ["CON", "PRN", "AUX", "NUL", "COM1", "COM2", "COM3", "COM4", "COM5", "COM6", "COM7", "COM8", "COM9",
   "LPT1", "LPT2", "LPT3", "LPT4", "LPT5", "LPT6", "LPT7", "LPT8", "LPT9"]

/-- The test for a device name (FileSystem.cpp:422-426). -/
def isDevice (s : Bytes) (d : Bytes) : Bool :=
  (d.map WildMask.lower).isPrefixOf (s.map WildMask.lower) && (s[d.length]? == some 46 || s[d.length]? == none)

/-- FileSystem::MakeValidFilename (FileSystem.cpp:395-434). -/
def makeValid (allowSlashes : Bool) (s : Bytes) : Bytes :=
  let r := dropTrailing (s.map (validChar allowSlashes))
  if deviceNames.any (fun d => isDevice r (lit d)) then 95 :: r else r

/-- `strrchr`: the position of the last such character. -/
def lastIdx (c : UInt8) : Bytes → Option Nat
  | [] => none
  | b :: s =>
    match lastIdx c s with
    | some i => some (i + 1)
    | none => if b = c then some 0 else none

/-- The name with a number (FileSystem.cpp:445-470), without the directory. `filenameWithoutExt` is a
`BString<1024>`. -/
def dupName (base : Bytes) (n : Nat) : Bytes :=
  match lastIdx 46 base with
  | none => base ++ lit ".duplicate" ++ dec n
  | some 0 => base ++ lit ".duplicate" ++ dec n
  | some (e + 1) =>
    let stem := base.take (min (e + 1) 1023)
    let ext := base.drop (e + 1)
    if ext.map WildMask.lower == lit ".par2" then
      match lastIdx 46 stem with
      | some (v + 1) =>
        if (lit ".vol").isPrefixOf ((stem.drop (v + 1)).map WildMask.lower) then
          stem.take (v + 1) ++ lit ".duplicate" ++ dec n ++ base.drop (v + 1)
        else stem ++ lit ".duplicate" ++ dec n ++ ext
      | _ => stem ++ lit ".duplicate" ++ dec n ++ ext
    else stem ++ lit ".duplicate" ++ dec n ++ ext

/-- The name which is tried after `n` names were found to exist. -/
def candidate (dir base : Bytes) (n : Nat) : Bytes :=
  dir ++ 47 :: (if n = 0 then base else dupName base n)

/-- What a path stands for (the mode which `stat` gives). -/
inductive Kind where
  | regular
  | directory
  | special
deriving DecidableEq, Repr

/-- The contents of the file system: `none` if there is nothing of this name. -/
abbrev Fs := Bytes → Option Kind

/-- FileSystem::FileExists (FileSystem.cpp:529-547), POSIX. -/
def fileExists (fs : Fs) (path : Bytes) : Bool := fs path == some .regular

/-- The loop of FileSystem::MakeUniqueFilename (FileSystem.cpp:441-472) after `n` rounds. The counter is an
`int`; less than 2^31 files are assumed. `none`: not finished within `fuel` rounds. -/
def makeUnique (fs : Fs) (dir base : Bytes) : (fuel n : Nat) → Option Bytes
  | 0, _ => none
  | f + 1, n =>
    if fileExists fs (candidate dir base n) then makeUnique fs dir base f (n + 1) else some (candidate dir base n)

/-- FileSystem::BaseFileName (FileSystem.cpp:348-367). -/
def baseName (s : Bytes) : Bytes := (s.reverse.takeWhile (fun c => !(c == 47 || c == 92))).reverse

/-- NzbInfo::MakeNiceNzbName (DownloadInfo.cpp:196-207). -/
def niceName (removeExt : Bool) (file : Bytes) : Bytes :=
  let n := (baseName file).take 1023
  let n := if removeExt then
      match lastIdx 46 n with
      | some p => if (n.drop p).map WildMask.lower == lit ".nzb" then n.take p else n
      | none => n
    else n
  makeValid false n

/-- NzbInfo::BuildFinalDirName (DownloadInfo.cpp:243-268). `catDir`: the option CategoryX.DestDir of the
category, `[]` if there is none; `append`: the option AppendCategoryDir. -/
def finalDir (destDir catDir : Bytes) (append : Bool) (category name : Bytes) : Bytes :=
  let useCategory := category != []
  let dir := if useCategory && catDir != [] then catDir else destDir
  let useCategory := useCategory && catDir == []
  let dir := if append && useCategory then dir ++ 47 :: makeValid true category else dir
  dir ++ 47 :: name

end Verif.FileName
