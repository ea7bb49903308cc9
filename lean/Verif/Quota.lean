/-
Model of the quota check of /repo/daemon/nntp/StatMeter.cpp:456-544 and the speed meter, 283-375.
-/
import Verif.Volume
import Verif.CalendarProps

namespace Verif.Quota
open Verif.Volume Verif.Calendar

/-- The C library function `gmtime_r`, for times since 1970: trusted to be the Gregorian calendar. -/
def gmtime (t : Int) : Tm :=
  (civil (t / 86400).toNat).tm (t % 86400 / 3600) (t % 3600 / 60) (t % 60)

/-- StatMeter::CalcMonthSlots, StatMeter.cpp:515-544: days since the start of the billing month, with the current day.
`start` is the option QuotaStartDay, `loc` the local time. -/
def calcMonthSlots (start loc : Int) : Int :=
  let parts := gmtime loc
  if start > parts.mday then
    let prev := { parts with mon := parts.mon - 1, mday := start }
    let prevMonth := timegm prev
    let prevMonth :=
      if (gmtime prevMonth).mday ≠ start then timegm { prev with mday := 1, mon := prev.mon + 1 }
      else prevMonth
    (((toI32 (loc - prevMonth)).tdiv 60).tdiv 60).tdiv 24 + 1
  else parts.mday - start + 1

/-- The loop of StatMeter.cpp:501-509, `k` steps down from `slot`. -/
def sumDown (days : List Int) (slot : Int) : Nat → Int
  | 0 => 0
  | k + 1 =>
    (if 0 ≤ slot ∧ slot < days.length then days.getD slot.toNat 0 else 0) + sumDown days (slot - 1) k

/-- StatMeter::CalcQuotaUsage, StatMeter.cpp:485-513: bytes of the billing month and of the day. `none`: `at()` throws, the
program ends. -/
def calcQuotaUsage (v : Volume) (start loc : Int) : Option (Int × Int) :=
  let daySlot := toI32 (loc.tdiv 86400) - v.firstDay
  let dayBytes : Option Int :=
    if daySlot < v.days.length then (if daySlot < 0 then none else some (v.days.getD daySlot.toNat 0)) else some 0
  dayBytes.bind fun dayBytes =>
    let elapsed := calcMonthSlots start loc
    let endSlot := max (daySlot - elapsed) (-1)
    some (sumDown v.days daySlot (daySlot - endSlot).toNat, dayBytes)

/-- The options MonthlyQuota and DailyQuota (megabytes) and QuotaStartDay. -/
structure Options where
  monthly : Int
  daily : Int
  start : Int
deriving DecidableEq, Repr

/-- StatMeter::CheckQuota, StatMeter.cpp:456-483: the new value of "quota reached", `old` is the last one. `none`: the
program ends with an exception. -/
def checkQuota (o : Options) (v : Volume) (loc : Int) (old : Bool) : Option Bool :=
  if o.daily = 0 ∧ o.monthly = 0 then some old
  else
    (calcQuotaUsage v o.start loc).bind fun u =>
      some ((decide (o.monthly > 0) && decide (u.1 ≥ o.monthly * 1024 * 1024)) ||
        (decide (o.daily > 0) && decide (u.2 ≥ o.daily * 1024 * 1024)))

/-! ### Speed meter -/

/-- The members of StatMeter for the speed, StatMeter.h:96-105. -/
structure Meter where
  bytes : List Int
  times : List Int
  index : Int
  total : Int
  start : Int
  correction : Int
  curSecTime : Int
  curSecBytes : Int
  all : Int
deriving DecidableEq, Repr

/-- StatMeter::ResetSpeedStat, StatMeter.cpp:361-375. SPEEDMETER_SLOTS = 30, SPEEDMETER_SLOTSIZE = 1. -/
def resetSpeed (now all : Int) : Meter :=
  ⟨List.replicate 30 0, List.replicate 30 (toI32 now), 0, 0, toI32 now, now, 0, 0, all⟩

/-- One turn of the loop in StatMeter::AddSpeedReading, StatMeter.cpp:321-341. `none`: out of bounds. -/
def advance (m : Meter) (slot : Int) : Option Meter :=
  let i := if m.index + 1 ≥ 30 then 0 else m.index + 1
  if 0 ≤ i ∧ i < m.bytes.length ∧ i < m.times.length then
    some { m with
      index := i, total := m.total - m.bytes.getD i.toNat 0, start := m.times.getD i.toNat 0,
      bytes := m.bytes.set i.toNat 0, times := m.times.set i.toNat slot }
  else none

/-- The loop, StatMeter.cpp:319-342. `none`: out of bounds, or more than `k` turns. -/
def advanceLoop (slot : Int) : Nat → Meter → Option Meter
  | 0, _ => none
  | k + 1, m =>
    if 0 ≤ m.index ∧ m.index < m.times.length then
      if slot > m.times.getD m.index.toNat 0 then (advance m slot).bind (advanceLoop slot k) else some m
    else none

/-- StatMeter::AddSpeedReading, StatMeter.cpp:307-359. Calls from several threads are not protected from each other
in the code (a comment there says the total can be wrong for a second); the model has one call after the other. -/
def addSpeed (m : Meter) (now bytes : Int) : Option Meter :=
  let slot := toI32 now
  let m := if now ≠ m.curSecTime then { m with curSecTime := now, curSecBytes := 0 } else m
  let m := { m with curSecBytes := m.curSecBytes + bytes }
  (advanceLoop slot 2 m).bind fun m =>
  let m := if now > m.correction then { m with total := m.bytes.sum, correction := now } else m
  let m := if m.total = 0 then { m with start := slot } else m
  (addAt m.bytes m.index bytes).bind fun b =>
  some { m with bytes := b, total := m.total + bytes, all := m.all + bytes }

/-- StatMeter::CalcCurrentDownloadSpeed, StatMeter.cpp:283-297. -/
def currentSpeed (m : Meter) (standBy : Bool) (now : Int) : Int :=
  if standBy then 0
  else
    let diff := toI32 now - m.start
    if diff = 0 then 0 else m.total.tdiv diff

/-- StatMeter::CalcMomentaryDownloadSpeed, StatMeter.cpp:300-305. -/
def momentarySpeed (m : Meter) (now : Int) : Int := if now = m.curSecTime then m.curSecBytes else 0

/-- Calls of the speed meter. -/
inductive MeterOp where
  | add (now bytes : Int)
  | reset (now : Int)
deriving DecidableEq, Repr

def MeterOp.run (m : Meter) : MeterOp → Option Meter
  | .add now bytes => addSpeed m now bytes
  | .reset now => some (resetSpeed now m.all)

end Verif.Quota
