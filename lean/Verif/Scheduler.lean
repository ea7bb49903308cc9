/-
Model of the task scheduler, /repo/daemon/main/Scheduler.cpp.
-/
import Verif.CalendarProps

namespace Verif.Scheduler
open Verif.Calendar

/-- Scheduler::Task, Scheduler.h:47-64. The command is not modelled: an execution is an event. -/
structure Task where
  hours : Int
  minutes : Int
  weekDays : Nat
  lastExecuted : Int
deriving DecidableEq, Repr

/-- Task::STARTUP_TASK, Scheduler.h:56. -/
def startupTask : Int := -1

/-- A call of Scheduler::ExecuteTask: number of the task, the time it was due (local time), and the local `executeProcess`,
Scheduler.cpp:191: if false, commands which start a program or fetch a feed do nothing. -/
structure Event where
  task : Nat
  appoint : Int
  process : Bool
deriving DecidableEq, Repr

/-- Scheduler.cpp:146-152: the time of day of the task on the day of `loop`. `gmtime_r` is modelled by the calendar
(`civil`), for times since 1970. -/
def appointOn (t : Task) (loop : Int) : Int := timegm ((civil (loop / 86400).toNat).tm t.hours t.minutes 0)

/-- Scheduler.cpp:154-160: `tm_wday` is 0 for Sunday. -/
def weekDayOk (t : Task) (loop : Int) : Bool :=
  let wday := (loop / 86400 + 4) % 7
  let weekDay := if wday = 0 then 7 else wday
  t.weekDays == 0 || t.weekDays.testBit (weekDay - 1).toNat

/-- The body of the inner loop, Scheduler.cpp:143-170. -/
def checkTask (exec : Bool) (last cur loop : Int) (i : Nat) (t : Task) : Task × List Event :=
  if t.lastExecuted ≠ loop then
    let appoint := appointOn t loop
    let doTask := (decide (t.hours ≥ 0) && weekDayOk t loop && decide (last < appoint) && decide (appoint ≤ cur)) ||
      (decide (t.hours = startupTask) && decide (t.lastExecuted = 0))
    if doTask then ({ t with lastExecuted := loop }, [⟨i, appoint, exec || decide (t.hours = startupTask)⟩])
    else (t, [])
  else (t, [])

/-- The inner loop, Scheduler.cpp:142-171. `i`: number of the first task of the list. -/
def checkDay (exec : Bool) (last cur loop : Int) : Nat → List Task → List Task × List Event
  | _, [] => ([], [])
  | i, t :: ts =>
    let r := checkTask exec last cur loop i t
    let rs := checkDay exec last cur loop (i + 1) ts
    (r.1 :: rs.1, r.2 ++ rs.2)

/-- The loop over the days, Scheduler.cpp:140-174. The first argument bounds the number of turns. -/
def checkLoop (exec : Bool) (last cur : Int) : Nat → Int → List Task → List Task × List Event
  | 0, _, ts => (ts, [])
  | k + 1, loop, ts =>
    if loop ≤ cur then
      let r := checkDay exec last cur loop 0 ts
      let rs := checkLoop exec last cur k (loop + 86400) r.1
      (rs.1, r.2 ++ rs.2)
    else (ts, [])

/-- The members of Scheduler. -/
structure Sched where
  tasks : List Task
  lastCheck : Int
  executeProcess : Bool
deriving DecidableEq, Repr

/-- The reset after a step of the clock, Scheduler.cpp:107-124. -/
def resetOnStep (s : Sched) (current : Int) : Sched :=
  let diff := current - s.lastCheck
  if diff > 60 * 90 ∨ diff < 0 then
    { s with
      lastCheck := current - 60 * 60 * 24 * 7, executeProcess := false,
      tasks := s.tasks.map (fun t => if t.hours ≠ startupTask then { t with lastExecuted := 0 } else t) }
  else s

/-- Scheduler::CheckTasks, Scheduler.cpp:95-181, at time `current` with offset `off` of the local time. -/
def checkTasks (s : Sched) (current off : Int) : Sched × List Event :=
  if s.tasks.isEmpty then ({ s with lastCheck := current }, [])
  else
    let s := resetOnStep s current
    let cur := current + off
    let last := s.lastCheck + off
    let loop := timegm ((civil (last / 86400).toNat).tm (cur % 86400 / 3600) (cur % 3600 / 60) (cur % 60))
    let turns := (cur / 86400 - last / 86400).toNat + 2
    let r := checkLoop s.executeProcess last cur turns loop s.tasks
    ({ s with tasks := r.1, lastCheck := current }, r.2)

/-- Scheduler::ServiceWork after the first check, Scheduler.cpp:89-91. -/
def tick (s : Sched) (current off : Int) : Sched × List Event := checkTasks { s with executeProcess := true } current off

/-- A sequence of ticks. -/
def ticks (s : Sched) (off : Int) : List Int → Sched × List Event
  | [] => (s, [])
  | t :: ts =>
    let r := tick s t off
    let rs := ticks r.1 off ts
    (rs.1, r.2 ++ rs.2)

/-- The order of tasks, Scheduler.cpp:45-48. -/
def before (a b : Task) : Bool := decide (a.hours < b.hours) || (decide (a.hours = b.hours) && decide (a.minutes ≤ b.minutes))

/-- Scheduler::FirstCheck, Scheduler.cpp:38-53. `std::sort` is modelled by a stable sort: the order of tasks at the same time is
not determined by the code. -/
def firstCheck (s : Sched) (current off : Int) : Sched × List Event :=
  checkTasks { s with tasks := s.tasks.mergeSort before } current off

end Verif.Scheduler
