/-! Up time and download time: StatMeter::Init, IntervalCheck, EnterLeaveStandBy and CalcTotalStat (nntp/StatMeter.cpp), with the
calls of QueueCoordinator::Run. Simplified: one call after the other; the offset of the local time and the saving are left out;
`time_t` is unbounded and the conversion of differences to `int` is left out. -/

namespace Verif.StatTime

/-- The members for the times (StatMeter.h:111-116). -/
structure T where
  startServer : Int
  lastCheck : Int
  startDownload : Int
  pausedFrom : Int
  standBy : Bool
deriving DecidableEq, Repr

/-- StatMeter::Init (StatMeter.cpp:175-178) and the initial values (StatMeter.h:111-116). -/
def init (now : Int) : T := ⟨now, now, 0, 0, true⟩

/-- StatMeter::IntervalCheck (StatMeter.cpp:203-226). -/
def check (s : T) (now : Int) : T :=
  let diff := now - s.lastCheck
  let s := if diff > 60 ∨ diff < 0 then
      let s := { s with startServer := s.startServer + (diff + 1) }
      if s.startDownload ≠ 0 ∧ s.standBy = false then { s with startDownload := s.startDownload + (diff + 1) } else s
    else s
  { s with lastCheck := now }

/-- StatMeter::EnterLeaveStandBy (StatMeter.cpp:236-257), without the speed. -/
def enterLeave (s : T) (enter : Bool) (now : Int) : T :=
  let s := { s with standBy := enter }
  if enter then { s with pausedFrom := now }
  else
    let s := if s.startDownload = 0 then { s with startDownload := now }
      else { s with startDownload := s.startDownload + (now - s.pausedFrom) }
    { s with pausedFrom := 0 }

/-- StatMeter::CalcTotalStat (StatMeter.cpp:259-280): up time and download time. -/
def total (s : T) (now : Int) : Int × Int :=
  (if s.startServer > 0 then now - s.startServer else 0,
   if s.standBy then s.pausedFrom - s.startDownload else now - s.startDownload)

/-- What the coordinator does (QueueCoordinator.cpp:195, 241-252, 270-284). -/
inductive Ev
  | check (now : Int)
  /-- The first download begins: `standBy` becomes false. -/
  | begin (now : Int)
  /-- The last download ended. -/
  | finish (now : Int)
deriving DecidableEq, Repr

def Ev.now : Ev → Int
  | .check t => t
  | .begin t => t
  | .finish t => t

/-- `none`: the coordinator calls EnterLeaveStandBy only if the state changes (`standBy != wasStandBy`). -/
def step (s : T) : Ev → Option T
  | .check now => some (check s now)
  | .begin now => if s.standBy then some (enterLeave s false now) else none
  | .finish now => if s.standBy then none else some (enterLeave s true now)

def run : T → List Ev → Option T
  | s, [] => some s
  | s, e :: l => match step s e with | none => none | some s' => run s' l

end Verif.StatTime
