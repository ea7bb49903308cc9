import Verif.MsgLog
import Verif.Text
import Verif.FeedFilter
/-
Model of the log of an entry in the queue directory: /repo/daemon/queue/DiskState.cpp AppendNzbMessage (2407-2442), LoadNzbMessages
(2444-2513), with StateDiskFile::ReadLine (60-80, `Text.readLine`); /repo/daemon/remote/XmlRpc.cpp LoadLogXmlCommand::GuardMessages
(3259-3284, what is shown).

What is simplified: texts have no byte 0; opening the file and writing to it succeed, up to the torn write of a crash; the text of the time
(`ctime`) is a parameter; systems whose lines end with one byte 10.
-/
namespace Verif.NzbLog
open CStr MsgLog

/-- A message as it is written: text of the time, time, kind, text. -/
structure Entry where
  stamp : Bytes
  time : Int
  kind : Kind
  text : Bytes
deriving DecidableEq, Repr

/-- The text with bad characters replaced (DiskState.cpp:2420-2431). -/
def clean (x : Bytes) : Bytes := (x.take 1023).map (fun b => if b = 10 ∨ b = 13 ∨ b = 9 then 32 else b)

/-- The beginning of a line, up to the text (DiskState.cpp:2433-2439). `%u` of an `int`. -/
def head (e : Entry) : Bytes := e.stamp ++ [9] ++ dec (e.time % 2 ^ 32).toNat ++ [9] ++ tag e.kind ++ [9]

/-- The line without its end (DiskState.cpp:2439). -/
def line (e : Entry) : Bytes := head e ++ clean e.text

/-- DiskState::AppendNzbMessage (DiskState.cpp:2407-2442). -/
def append (file : Bytes) (e : Entry) : Bytes := file ++ (line e ++ [10])

/-- What follows the first tab: `strchr` and `p + 1`. -/
def afterTab : Bytes → Option Bytes
  | [] => none
  | b :: l => if b = 9 then some l else afterTab l

/-- The kind (DiskState.cpp:2482-2502). -/
def kindOf (l : Bytes) : Kind :=
  if startsWith (lit "INFO") l then .info
  else if startsWith (lit "WARNING") l then .warning
  else if startsWith (lit "ERROR") l then .error
  else if startsWith (lit "DETAIL") l then .detail
  else if startsWith (lit "DEBUG") l then .debug
  else .error

/-- One line (DiskState.cpp:2470-2508): time, kind, text. `atoi` is `strtol` converted to `int`. -/
def parse (l : Bytes) : Option (Int × Kind × Bytes) :=
  match afterTab (FeedFilter.trimRight l) with
  | none => none
  | some t =>
    match afterTab t with
    | none => none
    | some k =>
      match afterTab k with
      | none => none
      | some x => some ((atoll t).bmod (2 ^ 32), kindOf k, x)

/-- DiskState::LoadNzbMessages (DiskState.cpp:2466-2509). The fuel is the length of the file. -/
def loadAux : (fuel : Nat) → (id : Nat) → Bytes → List Msg
  | 0, _, _ => []
  | fuel + 1, id, file =>
    match Text.readLine 1024 file with
    | none => []
    | some (l, rest) =>
      match parse l with
      | none => []
      | some (t, k, x) => ⟨id + 1, k, t, x⟩ :: loadAux fuel (id + 1) rest

def load (file : Bytes) : List Msg := loadAux file.length 0 file

/-- LoadLogXmlCommand::GuardMessages (XmlRpc.cpp:3259-3284). -/
def shownLog (file : Bytes) (cached : List Msg) : List Msg := if (load file).isEmpty then cached else load file

end Verif.NzbLog
