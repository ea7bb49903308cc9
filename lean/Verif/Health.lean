/-
Model of the health of a queue entry, /repo/daemon/queue/DownloadInfo.cpp:270-319 and QueueCoordinator.cpp:997-1028.
-/
import Verif.Counters

namespace Verif.Counters

/-- A value of type `int64`; `none`: overflow, undefined. -/
def int64 (x : Int) : Option Int := if -2 ^ 63 ≤ x ∧ x < 2 ^ 63 then some x else none

/-- A value of type `int`; `none`: overflow, undefined. -/
def int32 (x : Int) : Option Int := if -2 ^ 31 ≤ x ∧ x < 2 ^ 31 then some x else none

/-- The conversion of an `int64` to `int`: modulo 2^32. -/
def toInt (x : Int) : Int := x.bmod 4294967296

/-- NzbInfo::CalcHealth, DownloadInfo.cpp:270-286. The quotient is taken with 64 bits and converted to `int`. -/
def calcHealth (n : Nzb) : Option Int :=
  if n.curFailed = 0 ∨ n.size = n.parSize then some 1000
  else do
    let a ← int64 ((n.size - n.parSize - (n.curFailed - n.parCurFailed)) * 1000)
    let b ← int64 (n.size - n.parSize)
    let health := toInt (a.tdiv b)
    return if health = 1000 ∧ n.curFailed - n.parCurFailed > 0 then 999 else health

/-- NzbInfo::CalcCriticalHealth, DownloadInfo.cpp:288-319. `none`: overflow or division by zero. -/
def calcCriticalHealth (n : Nzb) (allowEstimation : Bool) : Option Int :=
  if n.size = 0 then some 1000
  else if n.size = n.parSize then some 0
  else do
    let good ← int64 (n.parSize - n.parCurFailed)
    let a ← int64 ((n.size - good * 2) * 1000)
    let b ← int64 (n.size - good)
    if b = 0 then none
    else
      let critical := toInt (a.tdiv b)
      let critical := if good * 2 > n.size then 0 else if critical = 1000 ∧ n.parSize > 0 then 999 else critical
      return if critical = 1000 ∧ allowEstimation then 850 else critical

/-- Option HealthCheck. -/
inductive HealthCheck | none | park | delete | pause
deriving DecidableEq, Repr

/-- What QueueCoordinator::CheckHealth does. -/
inductive HealthAction | keep | pause | delete | park
deriving DecidableEq, Repr

/-- QueueCoordinator::CheckHealth, QueueCoordinator.cpp:997-1028. `dupeScan`: the option ParScan is `dupe`; `paused`, `deleted`: the entry was
paused or deleted by the check before. The division by `GetTotalArticles` when it is zero is `none`. -/
def checkHealth (check : HealthCheck) (dupeScan paused deleted : Bool) (n : Nzb) : Option HealthAction :=
  if check = .none ∨ paused ∨ deleted then some .keep
  else do
    let h ← calcHealth n
    let c ← calcCriticalHealth n true
    if h ≥ c then return .keep
    else if dupeScan ∧ check = .park then
      let a ← int32 (n.successArticles * 100)
      if n.total = 0 then Option.none
      else return if a.tdiv n.total > 10 then .keep else .park
    else
      match check with
      | .none => return .keep
      | .pause => return .pause
      | .delete => return .delete
      | .park => return .park

end Verif.Counters
