import Verif.Quota

/-! The speed limit: the loop of ArticleDownloader::Download with several connections, over the speed meter of `Quota.lean`.
Every connection checks the speed, waits while it is too high, then receives one piece and reports it.
Simplified: check and report are one step each (the meter is not protected against calls from several threads, which its
source admits); what is received, and in which order the connections run, is open. -/

namespace Verif.Throttle
open Verif.Quota

/-- The most one read can bring: the size of `lineBuf` (ArticleDownloader.cpp:338, 356); the buffer of the connection
(ReadBuffer, 353) is smaller (CONNECTION_READBUFFER_SIZE, Connection.cpp:27). -/
def piece : Int := 4096

/-- The meter, the limit, `m_standBy` of StatMeter, and the connections which passed the check and have not reported yet. -/
structure S where
  meter : Meter
  limit : Int
  standBy : Bool
  passed : List Nat
deriving DecidableEq, Repr

/-- The condition to wait (ArticleDownloader.cpp:343-345), without the stop of the thread. -/
def wait (s : S) (now : Int) : Bool :=
  decide (s.limit > 0) && (decide (currentSpeed s.meter s.standBy now > s.limit) || decide (momentarySpeed s.meter now > s.limit))

inductive Ev
  /-- Connection `i` looks whether it must wait. -/
  | check (now : Int) (i : Nat)
  /-- Connection `i` received `bytes` and reports them. -/
  | recv (now : Int) (i : Nat) (bytes : Int)
  /-- Connection `i` received nothing and ends. -/
  | fail (now : Int) (i : Nat)
  /-- The coordinator: AddSpeedReading(0) (QueueCoordinator.cpp:266). -/
  | idle (now : Int)
deriving DecidableEq, Repr

def Ev.now : Ev → Int
  | .check t _ => t
  | .recv t _ _ => t
  | .fail t _ => t
  | .idle t => t

/-- One step. `none`: not a step of the program, or an access out of bounds in the meter. -/
def step (s : S) : Ev → Option S
  -- ArticleDownloader.cpp:343-349: who must wait tries again later
  | .check now i =>
    if s.passed.contains i then none
    else if wait s now then some s else some { s with passed := i :: s.passed }
  -- ArticleDownloader.cpp:353-371
  | .recv now i b =>
    if s.passed.contains i && decide (0 < b) && decide (b ≤ piece) then
      (addSpeed s.meter now b).map fun m => { s with meter := m, passed := s.passed.erase i }
    else none
  -- ArticleDownloader.cpp:361-369
  | .fail _ i => if s.passed.contains i then some { s with passed := s.passed.erase i } else none
  | .idle now => (addSpeed s.meter now 0).map fun m => { s with meter := m }

def run : S → List Ev → Option S
  | s, [] => some s
  | s, e :: l => match step s e with | none => none | some s' => run s' l

/-- After EnterLeaveStandBy(false) (StatMeter.cpp:236-257): no connection is under way. -/
def start (now all limit : Int) : S := ⟨resetSpeed now all, limit, false, []⟩

end Verif.Throttle
