import Verif.Scheduler

/-! The background services: ServiceCoordinator::Run (util/Service.cpp) and the interval of the scheduler
(Scheduler::ScheduleNextWork). Simplified: the work itself takes no time (all calls of Util::CurrentTime in one turn of the loop give
the same value); the interval of a service is what ServiceInterval returns in this turn. -/

namespace Verif.Service

/-- A service: what ServiceInterval returns (−1 Sleep, 0 Now, Service.h:31-32) and `m_lastWork`. -/
structure Svc where
  interval : Int
  last : Int
deriving DecidableEq, Repr

/-- The condition to work (Service.cpp:60-61). -/
def due (s : Svc) (now : Int) : Bool := decide (s.interval ≥ 0) && decide (((now - s.last).natAbs : Int) ≥ s.interval)

/-- The first loop (Service.cpp:57-66). -/
def work (now : Int) (l : List Svc) : List Svc := l.map fun s => if due s now then { s with last := now } else s

/-- The second loop (Service.cpp:69-81). -/
def waitInterval (now : Int) (l : List Svc) : Int :=
  l.foldl (fun w s => if s.interval ≥ 0 then min w (s.interval - (now - s.last)) else w) (60 * 60 * 24)

/-- Turns of the loop at the given times, with which services worked; `none`: the wait was longer than allowed (Service.cpp:84-89:
waiting ends at the latest after the interval, earlier if someone wakes it up; without waiting if the interval is not positive). -/
def run (l : List Svc) : Int → List Int → Option (List (Int × List Bool))
  | _, [] => some []
  | latest, now :: ts =>
    if now ≤ latest then
      let l' := work now l
      (run l' (now + max 0 (waitInterval now l')) ts).map fun r => (now, l.map (fun s => due s now)) :: r
    else none

/-- Scheduler::ScheduleNextWork (Scheduler.cpp:55-69): `gmtime_r`, one minute more, seconds 0, `timegm`. For times since 1970 this
is computed with the calendar of C45. -/
def schedulerInterval (now : Int) : Int :=
  Calendar.timegm ((Calendar.civil (now / 86400).toNat).tm (now % 86400 / 3600) (now % 3600 / 60 + 1) 0) - now

end Verif.Service
