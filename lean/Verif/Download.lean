import Verif.Pool
/-
Model of the retry loop of an article download, daemon/nntp/ArticleDownloader.cpp:72-290
`ArticleDownloader::Run`.

The news server pool is shared with other threads: between two accesses its state may change in any way
that does not change the server configuration (a change of the configuration is recognised by the
generation counter, ArticleDownloader.cpp:108, 200). Therefore every access gets the pool as an input.
-/
namespace Verif.Download
open Verif.Pool

/-- What `Download()` returns (ArticleDownloader.cpp:292-412). -/
inductive Dl where | finished | failed | notFound | crcError | connectError | fatalError
  deriving DecidableEq, Repr

/-- Outcome of the environment in one round of the loop.
`pool1`, `now1`, `rand`: pool, clock and random number when `GetConnection` is called;
`halt1`, `halt2`: stopped, paused, quota reached or configuration changed (lines 106-108, 198-200);
`retention`: the article is older than the server keeps (122-124); `connect`: result of `Connect()`;
`dl`: result of `Download()` and `freed` whether it released the connection (397);
`pool2`, `now2`: pool and clock when the servers are checked (217-242). -/
structure Inp where
  pool1 : Pool
  now1 : Int
  rand : Nat
  halt1 : Bool
  retention : Bool
  connect : Bool
  dl : Dl
  freed : Bool
  pool2 : Pool
  now2 : Int
  halt2 : Bool

/-- Local variables of `Run`: `failedServers`, `wantServer`, `level`, `remainedRetries`; `conn` is the
server of `m_connection`. Servers are given by id. -/
structure St where
  level : Nat := 0
  failed : List Nat := []
  want : Option Nat := none
  remained : Nat
  conn : Option Nat := none
  deriving DecidableEq, Repr

/-- What happened with a server in a round. `unavailable`: no connection. -/
inductive Tried where | retention | unavailable | answer (d : Dl)
  deriving DecidableEq, Repr

/-- End of the loop. -/
inductive Status where | finished | fatalError | retry | failed
  deriving DecidableEq, Repr

/-- Result of a round. -/
inductive Round where | stop (s : Status) | again (st : St)
  deriving DecidableEq, Repr

/-- Lines 221-235: the server counts as failed. -/
def serverFailed (p : Pool) (now : Int) (failed : List Nat) (s : Server) : Bool :=
  !s.active || s.maxConn == 0 || (s.optional && isBlocked p.retry now s) ||
    ignored (failed.filterMap (findServer p.servers)) s

/-- Lines 216-242. -/
def allFailed (p : Pool) (now : Int) (level : Nat) (failed : List Nat) : Bool :=
  p.servers.all (fun s => !decide (s.norm = (level : Int)) || serverFailed p now failed s)

/-- Lines 98-102 and 114-115: the connection's server and the new level; `none`: poll again. -/
def acquire (st : St) (i : Inp) : Option (Server × Nat) :=
  match st.conn with
  | some srv => (findServer i.pool1.servers srv).map (fun s => (s, s.norm.toNat))
  | none => match (getConnection i.pool1 st.level st.want st.failed i.now1 i.rand).1 with
    | none => none
    | some c => (findServer i.pool1.servers c.srv).map (fun s => (s, s.norm.toNat))

/-- Lines 120-153: what happened. -/
def attempt (i : Inp) : Tried :=
  if i.retention then .retention else if i.connect then .answer i.dl else .unavailable

/-- Lines 206-260: `gaveUp` is `!optionalBlocked`. -/
def nextServer (retries : Nat) (i : Inp) (level : Nat) (failed : List Nat) (srv : Nat) (gaveUp : Bool) : Round :=
  let failed := if gaveUp then failed ++ [srv] else failed         -- 208-211
  if allFailed i.pool2 i.now2 level failed then
    if level < i.pool2.maxNorm then .again { level := level + 1, failed := failed, remained := retries } -- 246-250
    else .stop .failed                                             -- 251-256
  else .again { level := level, failed := failed, remained := retries } -- 259

/-- Lines 141, 165-169: `connected`. -/
def isConnected : Tried → Bool
  | .answer .connectError => false
  | .answer _ => true
  | _ => false

/-- Lines 171-174: `remainedRetries`. -/
def remainedAfter (t : Tried) (remained : Nat) : Nat := if t = .answer .failed then remained - 1 else remained

/-- Line 184: try the same server again. -/
def again (t : Tried) (remained : Nat) : Bool := decide (t = .answer .failed) && decide (remained > 0)

/-- Lines 176-181: `optionalBlocked`. -/
def optBlocked (t : Tried) (s : Server) : Bool := !isConnected t && decide (t ≠ .retention) && s.optional

/-- Lines 183-260: what to do after the server was tried. -/
def conclude (retries : Nat) (st : St) (i : Inp) (s : Server) (level : Nat) (t : Tried) (remained : Nat) : Round :=
  if t = .answer .finished then .stop .finished                    -- 193
  else if t = .answer .fatalError then .stop .fatalError
  else if i.halt2 then .stop .retry                                -- 198-204
  else if again t remained then                                    -- 184-187
    .again { st with level := level, want := some s.id, remained := remained,
                     conn := if i.freed then none else some s.id }
  else if isConnected t || decide (t = .retention) || optBlocked t s then -- 206
    nextServer retries i level st.failed s.id (!optBlocked t s)
  else .again { level := level, failed := st.failed, remained := remained }

/-- Lines 95-260, one round; with what was tried. Cancellation inside the round (lines 135, 142, 177) is
covered by `halt2`: the status is `adRetry` then. -/
def round (retries : Nat) (st : St) (i : Inp) : Round × List (Nat × Tried) :=
  if i.halt1 then (.stop .retry, []) else                          -- 106-112
  match acquire st i with
  | none => (.again st, [])
  | some (s, level) =>
    (conclude retries st i s level (attempt i) (remainedAfter (attempt i) st.remained), [(s.id, attempt i)])

/-- Lines 93-261. Without further input the loop is still running: `none`. -/
def loop (retries : Nat) : St → List Inp → Option Status × List (Nat × Tried)
  | _, [] => (none, [])
  | st, i :: is =>
    match round retries st i with
    | (.stop s, a) => (some s, a)
    | (.again st, a) => let r := loop retries st is; (r.1, a ++ r.2)

/-- Lines 263-279: the final status; `duplicate`: another thread already downloaded the article.
`none` is `adRetry`, `true` finished, `false` failed. -/
def final (duplicate stopped : Bool) (s : Status) : Option Bool :=
  let r : Option Bool := if duplicate then some true else
    match s with
    | .finished => some true
    | .retry => none
    | _ => some false
  if stopped then none else r

/-- Lines 82-91 `Run`: `articleRetries` is the option. -/
def run (articleRetries : Int) (is : List Inp) : Option Status × List (Nat × Tried) :=
  let retries := if articleRetries > 0 then articleRetries.toNat else 1
  loop retries { remained := retries } is

end Verif.Download
