/-
Model of the computing of missing blocks by several threads: Repairer::RepairData (220-271), Repairer::RepairBlock (273-299), RepairThread::Run
(312-326) and RepairThread::RepairBlock (328-334) of /repo/daemon/postprocess/ParChecker.cpp, called by Par2Repairer::ProcessData
(/repo/lib/par2/par2repairer.cpp:2276-2446) for one piece of all blocks. The thread of the check and the threads of the repair make their steps
in any order. The flag m_working (ParChecker.cpp:99) is a `volatile bool`, not an atomic: the model supposes that the threads see all memory in
one order (on which the C++ standard does not insist).
-/
namespace Verif.ParThreads

/-- What one call of rs.Process adds to an output block: with the factors of the input block `inp`, for `len` bytes; `first` and `last`: which input
block was in the input buffer at its begin and at its end (`none`: a block was being read into it). -/
structure Add where
  inp : Nat
  len : Nat
  first : Option Nat
  last : Option Nat
deriving DecidableEq

/-- Where a thread of the repair is: it waits (316, 323); it saw m_working (318); it is inside rs.Process, which read the old content `old` of the
output block (279); it wrote the new content and is before 319. -/
inductive Ph
  | idle | seen | busy (out : Nat) (add : Nat × Nat) (first : Option Nat) (old : List Add) | stored
deriving DecidableEq

/-- A thread of the repair (84-100): m_working, m_inputindex, m_outputindex, m_blocklength. -/
structure Th where
  working : Bool := false
  inp : Nat := 0
  out : Nat := 0
  len : Nat := 0
  ph : Ph := .idle
deriving DecidableEq

/-- Where the thread of the check is. `k`: inputindex, `o`: outputindex, `i`: which thread is looked at. -/
inductive Pc
  | load (k : Nat)                      -- par2repairer.cpp:2293
  | loading (k : Nat)                   -- 2313, the block is being read
  | top (k o : Nat)                     -- ParChecker.cpp:227
  | look (k o i : Nat)                  -- 230-233
  | give (k o i part : Nat)             -- 235, 330-333, one after the other
  | chk (k o : Nat)                     -- 242
  | wait (k o i : Nat)                  -- 255-268
  | after (k : Nat)                     -- par2repairer.cpp:2365
  | ended (ok : Bool)                   -- behind 2446: the output is written, or the repair fails
deriving DecidableEq

/-- `buf`: which input block is in the input buffer; `outs`: the output buffer, for each output block what was added to it since it was cleared (2281). -/
structure St where
  ths : Nat → Th
  buf : Option Nat := none
  outs : Nat → List Add := fun _ => []
  cancelled : Bool := false
  pc : Pc := .load 0

/-- What does not change: how many threads, missing blocks (outputs) and input blocks there are, and the length of the piece. -/
structure Par where
  threads : Nat
  missing : Nat
  inputs : Nat
  len : Nat

def setTh (s : St) (i : Nat) (t : Th) : St := { s with ths := fun j => if j = i then t else s.ths j }

/-- A step of the thread of the check. Not modelled: errors of reading and writing, the copying of present blocks (2317-2331) and the progress. -/
def main (p : Par) (s : St) : St :=
  match s.pc with
  | .load k => if k < p.inputs then { s with buf := none, pc := .loading k } else { s with pc := .ended (!s.cancelled) }
  | .loading k => { s with buf := some k, pc := .top k 0 }
  | .top k o => { s with pc := if o < p.missing then .look k o 0 else .wait k o 0 }
  | .look k o i =>
    if i < p.threads then { s with pc := if (s.ths i).working then .look k o (i + 1) else .give k o i 0 }
    else { s with pc := .chk k o }
  | .give k o i 0 => { setTh s i { s.ths i with inp := k } with pc := .give k o i 1 }
  | .give k o i 1 => { setTh s i { s.ths i with out := o } with pc := .give k o i 2 }
  | .give k o i 2 => { setTh s i { s.ths i with len := p.len } with pc := .give k o i 3 }
  | .give k o i _ => { setTh s i { s.ths i with working := true } with pc := .chk k (o + 1) }
  | .chk k o => { s with pc := if s.cancelled then .wait k o 0 else .top k o }
  | .wait k o i =>
    if i < p.threads then { s with pc := if (s.ths i).working then .wait k o 0 else .wait k o (i + 1) }
    else { s with pc := .after k }
  | .after k => { s with pc := if s.cancelled then .ended false else .load (k + 1) }
  | .ended _ => s

/-- A step of the thread `i` of the repair. -/
def worker (s : St) (i : Nat) : St :=
  let t := s.ths i
  match t.ph with
  | .idle => setTh s i { t with ph := if t.working then .seen else .idle }
  | .seen => setTh s i { t with ph := .busy t.out (t.inp, t.len) s.buf (s.outs t.out) }
  | .busy o a first old =>
    { setTh s i { t with ph := .stored } with outs := fun j => if j = o then old ++ [⟨a.1, a.2, first, s.buf⟩] else s.outs j }
  | .stored => setTh s i { t with working := false, ph := .idle }

/-- `cancel`: Repairer's `cancelled` is set (ParChecker::Cancel, 1228-1238); it is never reset. -/
inductive Ev | main | worker (i : Nat) | cancel
deriving DecidableEq

def step (p : Par) (s : St) : Ev → St
  | .main => main p s
  | .worker i => if i < p.threads then worker s i else s
  | .cancel => { s with cancelled := true }

def exec (p : Par) (s : St) (evs : List Ev) : St := evs.foldl (step p) s

/-- The output when no threads are used (par2repairer.cpp:2293-2372, not cancelled): for each input block, for each output block. -/
def alone (p : Par) : Nat → List Add :=
  (List.range p.inputs).foldl (fun outs k =>
    (List.range p.missing).foldl (fun outs o j => if j = o then outs j ++ [⟨k, p.len, some k, some k⟩] else outs j) outs) (fun _ => [])

/-- How many threads are started, BeginRepair (177-203): `option`: ParThreads, `cores`: the number of processors (0 or less: not known).
Only if there are two or more they are used; otherwise ProcessData computes everything itself (2333-2363). -/
def threads (option cores : Int) (missing : Nat) : Int :=
  let n := if option > 0 then option else cores
  let n := if n > 0 then n else 1
  if n > missing then missing else n

end Verif.ParThreads
