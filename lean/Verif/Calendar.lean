/-
Model of the calendar conversion Util::Timegm, /repo/daemon/util/Util.cpp:583-645.

Simplification: `int` and `time_t` are unbounded integers (C division and remainder truncate: `Int.tdiv`, `Int.tmod`).
-/
namespace Verif.Calendar

/-- The members of `struct tm` which are used. -/
structure Tm where
  year : Int
  mon : Int
  mday : Int
  hour : Int
  min : Int
  sec : Int
deriving DecidableEq, Repr

/-- is_leap, Util.cpp:585-594. -/
def isLeap (year : Int) : Bool :=
  if year.tmod 400 = 0 then true
  else if year.tmod 100 = 0 then false
  else if year.tmod 4 = 0 then true
  else false

/-- days_from_0, Util.cpp:595-599. -/
def daysFrom0 (year : Int) : Int :=
  let year := year - 1
  365 * year + year.tdiv 400 - year.tdiv 100 + year.tdiv 4

/-- days_from_1970, Util.cpp:600-604. -/
def daysFrom1970 (year : Int) : Int := daysFrom0 year - 719162

/-- The table in days_from_1jan, Util.cpp:607-611. -/
def daysTable : Bool → List Int
  | false => [0, 31, 59, 90, 120, 151, 181, 212, 243, 273, 304, 334]
  | true => [0, 31, 60, 91, 121, 152, 182, 213, 244, 274, 305, 335]

/-- days_from_1jan, Util.cpp:605-613. The month is always in 1..12 here (see `monthOf_range`), the default of
`getD` is not used. -/
def daysFrom1Jan (year month day : Int) : Int := (daysTable (isLeap year)).getD (month - 1).toNat 0 + day - 1

/-- The normalised year, Util.cpp:617-628. -/
def yearOf (t : Tm) : Int :=
  let year := t.year + 1900
  if t.mon > 11 then year + t.mon.tdiv 12
  else if t.mon < 0 then year - (-t.mon + 11).tdiv 12
  else year

/-- The normalised month, 0..11, Util.cpp:618-628. -/
def monthOf (t : Tm) : Int :=
  if t.mon > 11 then t.mon.tmod 12
  else if t.mon < 0 then t.mon + 12 * (-t.mon + 11).tdiv 12
  else t.mon

/-- internal_timegm, Util.cpp:615-640. -/
def timegm (t : Tm) : Int :=
  let day := daysFrom1Jan (yearOf t) (monthOf t + 1) t.mday
  let days := daysFrom1970 (yearOf t) + day
  86400 * days + 3600 * t.hour + 60 * t.min + t.sec

end Verif.Calendar
