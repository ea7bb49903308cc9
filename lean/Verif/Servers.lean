import Verif.Record
/-
Model of the file "stats": daemon/queue/DiskState.cpp:2064-2078 `SaveServerInfo`, 2129-2217 `FindCandidates`,
`MatchServers`, 2224-2282 `LoadServerInfo`, 2284-2314 `SaveVolumeStat`, 2316-2385 `LoadVolumeStat` (for the format version which
is written), with daemon/nntp/StatMeter.cpp:175-182 `Init` and daemon/main/Options.cpp:961-1058 `InitServers`
(the ids of the servers).
-/
namespace Verif.Servers
open Verif.Text Verif.Record

/-- The identifying settings of a news server. -/
structure Key where
  name : Bytes
  host : Bytes
  port : I32
  user : Bytes
  deriving DecidableEq, Repr

/-- `ServerRef` (2085-2105): a server of the file. -/
structure Ref where
  stateId : Nat
  key : Key
  matched : Bool
  perfect : Bool
  deriving DecidableEq, Repr

inductive Criteria
  | name | host | port | user

/-- 2138-2152. -/
def fits (s : Key) (c : Criteria) (r : Ref) : Bool :=
  match c with
  | .name => sameName s.name r.key.name
  | .host => sameName s.host r.key.host
  | .port => s.port == r.key.port
  | .user => sameName s.user r.key.user

/-- 2129-2161. A reference of the C++ list is a copy here: the flags do not change during the search. -/
def findCandidates (s : Key) (refs : List Ref) (c : Criteria) (keepIfNothing : Bool) : List Ref :=
  let found := refs.filter (fun r => fits s c r && !r.matched)
  if found.length = 0 ∧ keepIfNothing then refs else found

/-- `ref->SetMatched(true)` (and `SetPerfect`); the reference is identified by its number, which is different for
all references (2248). -/
def mark (refs : List Ref) (id : Nat) (perfect : Bool) : List Ref :=
  refs.map (fun r => if r.stateId = id then { r with matched := true, perfect := r.perfect || perfect } else r)

/-- 2166-2182 for one server: its number in the file (0: none) and the references. -/
def perfectMatch (s : Key) (refs : List Ref) : Nat × List Ref :=
  let m := findCandidates s refs .name false
  let m := findCandidates s m .host false
  let m := findCandidates s m .port false
  let m := findCandidates s m .user false
  match m with
  | [r] => (r.stateId, mark refs r.stateId true)
  | _ => (0, refs)

/-- 2194-2207. -/
def narrow (s : Key) (c : Criteria) (m : List Ref) : List Ref :=
  if m.length > 1 then findCandidates s m c true else m

/-- 2187-2215 for one server. -/
def looseMatch (s : Key) (id : Nat) (refs : List Ref) : Nat × List Ref :=
  if id ≠ 0 then (id, refs)
  else
    let m := findCandidates s refs .host false
    let m := narrow s .name m
    let m := narrow s .user m
    let m := narrow s .port m
    match m with
    | r :: _ => (r.stateId, mark refs r.stateId false)
    | [] => (0, refs)

def step1 : List Key → List Ref → List Nat × List Ref
  | [], refs => ([], refs)
  | s :: ss, refs =>
    let (id, refs) := perfectMatch s refs
    let (ids, refs) := step1 ss refs
    (id :: ids, refs)

def step2 : List (Key × Nat) → List Ref → List Nat × List Ref
  | [], refs => ([], refs)
  | (s, id) :: ss, refs =>
    let (id, refs) := looseMatch s id refs
    let (ids, refs) := step2 ss refs
    (id :: ids, refs)

/-- 2163-2217. The servers were just created, their numbers are 0. -/
def matchServers (servers : List Key) (refs : List Ref) : List Nat × List Ref :=
  let (ids, refs) := step1 servers refs
  step2 (servers.zip ids) refs

/-- The references for the stored servers, `m_stateId = i + 1` (2247-2255). -/
def refsFrom : Nat → List Key → List Ref
  | _, [] => []
  | i, k :: ks => ⟨i + 1, k, false, false⟩ :: refsFrom (i + 1) ks

def refsOf (stored : List Key) : List Ref := refsFrom 0 stored

/-- The numbers which the configured servers get (2258). -/
def stateIds (servers stored : List Key) : List Nat := (matchServers servers (refsOf stored)).1

/-- 2229, 2260-2268: `perfectMatch`. -/
def allPerfect (servers stored : List Key) : Bool :=
  let r := matchServers servers (refsOf stored)
  r.2.all (·.perfect) && r.1.all (· ≠ 0)

/-! ### Text of the servers -/

/-- 2071-2074. -/
def saveKey (k : Key) : List Bytes := [k.name, k.host, showNums [(.i, k.port)], k.user]

def saveServers (ks : List Key) : List Bytes := countLine ks.length :: ks.flatMap saveKey

/-- 2235-2245: the buffers have 1024, 200 and 100 bytes. -/
def loadKey : Reader Key := fun b => do
  let (name, b) ← readLine 1024 b
  let (host, b) ← readLine 200 b
  let ([port], b) ← scanLine [.i] b | none
  let (user, b) ← readLine 100 b
  some (⟨name, host, port, user⟩, b)

def loadKeys : Reader (List Key) := readList loadKey

/-! ### Volumes -/

structure Volume where
  firstDay : I32
  dataTime : I64
  customTime : I64
  totalBytes : I64
  customBytes : I64
  seconds : List I64
  minutes : List I64
  hours : List I64
  days : List I64
  deriving DecidableEq, Repr

def saveArray (xs : List I64) : List Bytes := countLine xs.length :: xs.flatMap (fun x => [showNums (halves x)])

/-- 2289-2311. -/
def saveVolume (v : Volume) : List Bytes :=
  [showNums [(.i, v.firstDay), (.i, timeToInt v.dataTime), (.i, timeToInt v.customTime)],
   showNums (halves v.totalBytes ++ halves v.customBytes)] ++
  saveArray v.seconds ++ saveArray v.minutes ++ saveArray v.hours ++ saveArray v.days

def saveVolumes (vs : List Volume) : List Bytes := countLine vs.length :: vs.flatMap saveVolume

def loadCell : Reader I64 := fun b => do
  let ([h, l], b) ← scanLine [.u, .u] b | none
  some (joinInt64 h l, b)

/-- 2341-2376 (the text; the values are stored only if there is a server for it). -/
def loadVolume : Reader Volume := fun b => do
  let ([firstDay, dataTime, customTime], b) ← scanLine [.i, .i, .i] b | none
  let ([h1, l1, h2, l2], b) ← scanLine [.u, .u, .u, .u] b | none
  let (seconds, b) ← readList loadCell b
  let (minutes, b) ← readList loadCell b
  let (hours, b) ← readList loadCell b
  let (days, b) ← readList loadCell b
  some (⟨firstDay, intToTime dataTime, intToTime customTime, joinInt64 h1 l1, joinInt64 h2 l2, seconds, minutes,
    hours, days⟩, b)

/-- 2324-2339: where the `i`-th volume of the file is stored: the last server with that number. The servers are pairs of
`GetId()` and `GetStateId()`. -/
def target (servers : List (Nat × Nat)) (i : Nat) : Option Nat :=
  if i = 0 then some 0
  else servers.foldl (fun t s => if s.2 = i then some s.1 else t) none

/-- 2322-2377 after the parsing; `none`: `at` throws. -/
def placeVolumes (servers : List (Nat × Nat)) : Nat → List Volume → List Volume → Option (List Volume)
  | _, [], mem => some mem
  | i, v :: vs, mem =>
    match target servers i with
    | none => placeVolumes servers (i + 1) vs mem
    | some k => if k < mem.length then placeVolumes servers (i + 1) vs (mem.set k v) else none

/-- The whole `LoadStats` (2045-2050): `servers` are the configured servers with their ids, `mem` the volumes in
memory (`m_serverVolumes`). `none`: an error or an exception. -/
def loadStats (servers : List (Nat × Key)) (mem : List Volume) (b : Bytes) : Option (List Volume) := do
  let (stored, b) ← loadKeys b
  let ids := stateIds (servers.map (·.2)) stored
  let (vs, _) ← readList loadVolume b
  placeVolumes ((servers.map (·.1)).zip ids) 0 vs mem

/-- `SaveStats` (2015-2019). -/
def saveStats (servers : List Key) (vs : List Volume) : Option Bytes :=
  printLines (saveServers servers ++ saveVolumes vs)

/-- `InitServers`: the definition of server `n` in the configuration file may be incomplete; then it is not added but the number is
used up (1025-1056). -/
def serverIds : Nat → List (Option Key) → List (Nat × Key)
  | _, [] => []
  | n, none :: ds => serverIds (n + 1) ds
  | n, some k :: ds => (n, k) :: serverIds (n + 1) ds

/-- `m_serverVolumes[serverId].AddData(bytes)` (StatMeter.cpp:412-413): the index is inside of the vector. -/
def indexOk (servers : List (Nat × Key)) (serverId : Nat) : Prop := serverId < 1 + servers.length

end Verif.Servers
