import Verif.WildMask
import Verif.FileName
import Verif.CalendarProps

/-
Model of the log files with a date in the name (option WriteLog=rotate): /repo/daemon/util/Log.cpp Filelog (56-100, the choice of the file) and
RotateLog (301-358), for POSIX.

Not modelled: the text of messages, errors when a file is opened or deleted. `gmtime_r` is the calendar of C45. The option TimeCorrection is added
to every reading of the clock and is a part of the time here; times are not negative. `int` is 32 bits: a time is cut to it before it is divided.
-/
namespace Verif.LogRotate
open CStr Calendar

/-- The options LogFile and RotateLog. -/
structure Config where
  logFile : Bytes
  keep : Int
deriving DecidableEq, Repr

/-- The name in the path (Log.cpp:303-310), behind the last slash or backslash. -/
def fileName (c : Config) : Bytes := FileName.baseName (c.logFile.take 1023)

/-- The last dot, if it is not the first character (Log.cpp:312-318). -/
def dot (c : Config) : Option Nat :=
  match FileName.lastIdx 46 (fileName c) with
  | some i => if 0 < i then some i else none
  | none => none

def base (c : Config) : Bytes :=
  match dot c with
  | some i => (fileName c).take i
  | none => fileName c

def ext (c : Config) : Bytes :=
  match dot c with
  | some i => (fileName c).drop i
  | none => []

/-- The directory. Without a slash the name and the directory are the same memory, which is cut at the dot (Log.cpp:303-318). -/
def directory (c : Config) : Bytes :=
  if (fileName c).length < (c.logFile.take 1023).length then (c.logFile.take 1023).take ((c.logFile.take 1023).length - (fileName c).length - 1)
  else base c

/-- Log.cpp:320. -/
def mask (c : Config) : Bytes := (base c ++ (lit "-####-##-##" ++ ext c)).take 1023

/-- `(int)t / 86400` (Log.cpp:76, 323, 340): first cut to 32 bits, then divided. -/
def day (t : Int) : Int := (t.bmod (2 ^ 32)).tdiv 86400

/-- `atoi`. -/
def atoi (s : Bytes) : Int := (atoll s).bmod (2 ^ 32)

/-- `atoi(filename + mask.GetMatchStart(index))` (Log.cpp:335-337). There are always three positions (`old_iff`). -/
def number (name : Bytes) (refs : List WildMask.Ref) (index : Nat) : Int := atoi (name.drop ((refs[index]?).elim 0 (·.start)))

/-- Log.cpp:333-340. -/
def fileDay (name : Bytes) (refs : List WildMask.Ref) : Int :=
  day (timegm ⟨number name refs 0 - 1900, number name refs 1 - 1, number name refs 2, 0, 0, 0⟩)

/-- Is the file deleted? (Log.cpp:329, 342). -/
def old (c : Config) (now : Int) (name : Bytes) : Bool :=
  match WildMask.run true (mask c) name with
  | some (true, refs) => decide (fileDay name refs ≤ day now - c.keep)
  | _ => false

/-- `%.2i`. -/
def two (n : Nat) : Bytes := if n < 10 then 48 :: dec n else dec n

/-- `%s-%i-%.2i-%.2i%s` (Log.cpp:354-355) for a day counted from 1 January 1970. -/
def dated (c : Config) (n : Nat) : Bytes :=
  base c ++ 45 :: (dec (civil n).year.toNat ++ 45 :: (two (civil n).month.toNat ++ 45 :: (two (civil n).day.toNat ++ ext c)))

/-- RotateLog (Log.cpp:301-358): what remains in the directory, and the path of the file to write to. `files`: the names in the directory. -/
def rotate (c : Config) (now : Nat) (files : List Bytes) : List Bytes × Bytes :=
  (files.filter (fun f => !old c now f), (directory c ++ 47 :: dated c (now / 86400)).take 1023)

/-- The log: m_lastWritten, m_logFilename. -/
structure Log where
  last : Nat
  file : Bytes
deriving DecidableEq, Repr

/-- Filelog (Log.cpp:71-85): the choice of the file for a message written at `t`. The clock is read again in RotateLog, `t'`. -/
def write (c : Config) (t t' : Nat) (s : Log) : Log :=
  if day t ≠ day s.last then ⟨t, (rotate c t' []).2⟩ else ⟨t, s.file⟩

/-- InitOptions (Log.cpp:375, Log.h:99). -/
def start (c : Config) : Log := ⟨0, c.logFile⟩

/-- The messages with their two readings of the clock, and the files into which they are written. -/
def run (c : Config) : Log → List (Nat × Nat) → List Bytes
  | _, [] => []
  | s, (t, t') :: l => (write c t t' s).file :: run c (write c t t' s) l

end Verif.LogRotate
