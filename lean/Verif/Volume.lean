/-
Model of the download volume statistics: class ServerVolume of /repo/daemon/nntp/StatMeter.cpp and StatMeter.h.

Simplifications: byte counters (`int64`, and the slots of the speed meter) are unbounded integers. Times are
integers; the conversions `(int)time` are modelled (`toI32`).
-/
namespace Verif.Volume

/-- The conversion of a 64 bit time to `int`: `(int)locCurTime` in StatMeter.cpp:34-37 and 76. -/
def toI32 (t : Int) : Int := Int.bmod t (2 ^ 32)

/-- class ServerVolume, StatMeter.h:28-75: charts of bytes per second, minute, hour and day, and the last used
slots. `m_customTime` is not modelled. -/
structure Volume where
  secs : List Int
  mins : List Int
  hours : List Int
  days : List Int
  firstDay : Int
  total : Int
  custom : Int
  dataTime : Int
  secSlot : Int
  minSlot : Int
  hourSlot : Int
  daySlot : Int
deriving DecidableEq, Repr

/-- The initial values of the members, StatMeter.h:61-74. -/
def Volume.init : Volume :=
  ⟨List.replicate 60 0, List.replicate 60 0, List.replicate 24 0, [], 0, 0, 0, 0, 0, 0, 0, 0⟩

/-- DAYS_UP_TO_2013_JAN_1, StatMeter.cpp:28. -/
def daysUpTo2013 : Int := 15706

/-- DAYS_IN_TWENTY_YEARS, StatMeter.cpp:29. -/
def daysInTwentyYears : Int := 366 * 20

/-- `std::vector::resize(n)` to a larger size, StatMeter.cpp:46-49. -/
def grow (l : List Int) (n : Int) : List Int :=
  if n > l.length then l ++ List.replicate (n.toNat - l.length) 0 else l

/-- ServerVolume::CalcSlots, StatMeter.cpp:31-56. -/
def calcSlots (v : Volume) (loc : Int) : Volume :=
  let t := toI32 loc
  let v := { v with secSlot := t.tmod 60, minSlot := (t.tdiv 60).tmod 60, hourSlot := (t.tmod 86400).tdiv 3600 }
  let day := t.tdiv 86400
  let slot := day - daysUpTo2013 + 1
  if 0 ≤ slot ∧ slot < daysInTwentyYears then
    let first := if v.firstDay = 0 ∨ v.firstDay > day then day else v.firstDay
    { v with firstDay := first, daySlot := day - first, days := grow v.days (day - first + 1) }
  else
    { v with daySlot := -1 }

/-- `slots[i] += bytes`. `none`: the index is out of bounds (undefined behaviour).
StatMeter.cpp:115-121. -/
def addAt (l : List Int) (i bytes : Int) : Option (List Int) :=
  if 0 ≤ i ∧ i < l.length then some (l.modify i.toNat (· + bytes)) else none

/-- The loops which clear slots, StatMeter.cpp:83-89, 95-101, 107-113: `k` more slots, starting with the
`i`-th before (after, if the clock went back) the current slot. `none`: out of bounds. -/
def clearLoop (n slot sign : Int) : Nat → Int → List Int → Option (List Int)
  | 0, _, l => some l
  | k + 1, i, l =>
    let s := slot - i * sign
    let s := if s < 0 then s + n else s
    let s := if s ≥ n then s - n else s
    if 0 ≤ s ∧ s < l.length then clearLoop n slot sign k (i + 1) (l.set s.toNat 0) else none

/-- How many slots are cleared, StatMeter.cpp:80-82 (`u = 1`, no check of the slot), 91-94 and 103-106.
`u`: seconds in a slot, `n`: number of slots, `total`: absolute value of the time since the last call. -/
def clearCount (u n total sign : Int) (changed : Bool) : Int :=
  let d := total.tdiv u
  let d := if sign < 0 then d + 1 else d
  let d := if d ≥ n then n else d
  if d = 0 ∧ changed then 1 else d

/-- One chart in ServerVolume::AddData: clear, StatMeter.cpp:71-113, then add, 115-118. `moved`: the time is not
the time of the last call; `total` has a sign here. -/
def chart (u n : Int) (l : List Int) (slot : Int) (changed moved : Bool) (total bytes : Int) : Option (List Int) :=
  let cleared :=
    if moved then
      let sign := if total ≥ 0 then 1 else -1
      clearLoop n slot sign (clearCount u n total.natAbs sign changed).toNat 0 l
    else some l
  cleared.bind (fun l => addAt l slot bytes)

/-- ServerVolume::AddData, StatMeter.cpp:58-126, for the clock `now` and the offset `off` of the local time.
`none`: access out of bounds. -/
def addData (v : Volume) (now off bytes : Int) : Option Volume :=
  let loc := now + off
  let locData := v.dataTime + off
  let lastMin := v.minSlot
  let lastHour := v.hourSlot
  let v := calcSlots v loc
  let moved := loc != locData
  let total := toI32 (loc - locData)
  (chart 1 60 v.secs v.secSlot false moved total bytes).bind fun secs =>
  (chart 60 60 v.mins v.minSlot (v.minSlot != lastMin) moved total bytes).bind fun mins =>
  (chart 3600 24 v.hours v.hourSlot (v.hourSlot != lastHour) moved total bytes).bind fun hours =>
  (if v.daySlot ≥ 0 then addAt v.days v.daySlot bytes else some v.days).bind fun days =>
  some { v with secs, mins, hours, days, total := v.total + bytes, custom := v.custom + bytes, dataTime := now }

/-- A call of AddData: UTC time, offset of the local time, bytes. -/
structure Report where
  now : Int
  off : Int
  bytes : Int
deriving DecidableEq, Repr

/-- The local time of a report. -/
def Report.loc (r : Report) : Int := r.now + r.off

/-- A sequence of calls of AddData; StatMeter::AddServerData and StatMeter::GuardServerVolumes, StatMeter.cpp:404-428,
make one for each volume. -/
def run (v : Volume) (l : List Report) : Option Volume :=
  l.foldlM (fun v r => addData v r.now r.off r.bytes) v

end Verif.Volume
