import Mathlib.Data.List.Sort
/-
Model of the news server connection pool, daemon/nntp/ServerPool.cpp.
Every method holds `m_connectionsMutex` from start to end, so each is one step.
-/
namespace Verif.Pool

/-- The members of `NewsServer` the pool uses. `id` stands for the object's address. `m_maxConnections`
is not negative (option check). -/
structure Server where
  id : Nat
  level : Int
  active : Bool
  maxConn : Nat
  group : Nat := 0
  optional : Bool := false
  norm : Int := 0
  blockTime : Int := 0
  deriving DecidableEq, Repr

/-- `PooledConnection` (ServerPool.h:54-65). `id` stands for the object's address, `srv` is the id of its
server, `connected` is `GetStatus() == csConnected`. -/
structure PConn where
  id : Nat
  srv : Nat
  inUse : Bool := false
  connected : Bool := false
  freeTime : Int := 0
  deriving DecidableEq, Repr

/-- `ServerPool` (ServerPool.h:70-78). `servers` is `m_sortedServers`; `nextId` numbers the connection
objects. -/
structure Pool where
  servers : List Server
  conns : List PConn := []
  levels : List Int := []
  maxNorm : Nat := 0
  retry : Int := 0
  generation : Nat := 0
  nextId : Nat := 0
  deriving DecidableEq, Repr

/-- The server of a connection. -/
def findServer (ss : List Server) (id : Nat) : Option Server := ss.find? (fun s => s.id == id)

/-- Write a server back. -/
def updServer (ss : List Server) (id : Nat) (f : Server → Server) : List Server :=
  ss.map (fun s => if s.id = id then f s else s)

/-- ServerPool.cpp:75-76: does the server get a level? -/
def usable (minLevel : Int) (s : Server) : Bool :=
  (s.active && decide (s.maxConn > 0)) || decide (s.level = minLevel)

/-- ServerPool.cpp:71-89, the second loop of `NormalizeLevels`. -/
def normWalk (minLevel : Int) : Int → Nat → List Server → List Server × Nat
  | _, mx, [] => ([], mx)
  | last, mx, s :: ss =>
    if usable minLevel s then
      let mx := if s.level ≠ last then mx + 1 else mx
      let r := normWalk minLevel s.level mx ss
      ({ s with norm := mx } :: r.1, r.2)
    else
      let r := normWalk minLevel last mx ss
      ({ s with norm := -1 } :: r.1, r.2)

/-- Order used for sorting: by level; servers of equal level by `tie`. -/
def before (tie : Nat → Nat) (a b : Server) : Bool :=
  decide (a.level < b.level) || (decide (a.level = b.level) && decide (tie a.id ≤ tie b.id))

/-- Insert into a sorted list. -/
def insertServer (tie : Nat → Nat) (x : Server) : List Server → List Server
  | [] => [x]
  | y :: ys => if before tie x y then x :: y :: ys else y :: insertServer tie x ys

/-- ServerPool.cpp:55-59. `std::sort` may order servers of equal level in any way: `tie` is this
choice. The sorting algorithm does not matter (see `sortServers_perm`, `sortServers_sorted`). -/
def sortServers (tie : Nat → Nat) : List Server → List Server
  | [] => []
  | x :: xs => insertServer tie x (sortServers tie xs)

/-- ServerPool.cpp:48-90 `NormalizeLevels`. After sorting, the first server has the minimum level; the
loop at 63-69 finds the same value. -/
def normalizeLevels (tie : Nat → Nat) (p : Pool) : Pool :=
  match sortServers tie p.servers with
  | [] => p                                                        -- 50-53
  | s :: ss =>
    let minLevel := (s :: ss).foldl (fun m x => if x.level < m then x.level else m) s.level -- 62-69
    let r := normWalk minLevel minLevel 0 (s :: ss)
    { p with servers := r.1, maxNorm := r.2 }

/-- `m_levels[i] += n`; `none` is an access out of bounds. -/
def addLevel (levels : List Int) (i : Nat) (n : Int) : Option (List Int) :=
  if i < levels.length then some (levels.set i (levels.getD i 0 + n)) else none

/-- Connections of a server (ServerPool.cpp:116-122). -/
def countConns (conns : List PConn) (srv : Nat) : Nat := (conns.filter (fun c => c.srv == srv)).length

/-- ServerPool.cpp:124-130: new connections up to the maximum. -/
def addConns (conns : List PConn) (nextId srv have_ max : Nat) : List PConn :=
  conns ++ (List.range (max - have_)).map (fun i => { id := nextId + i, srv := srv })

/-- ServerPool.cpp:101-135, the loop of `InitConnections` over the sorted servers. -/
def initLoop : List Server → List PConn → List Int → Nat → Option (List PConn × List Int × Nat)
  | [], conns, levels, nid => some (conns, levels, nid)
  | s :: ss, conns, levels, nid =>
    if s.norm > -1 then
      let levels := if (levels.length : Int) ≤ s.norm then levels ++ [0] else levels -- 107-110
      if s.active then do
        let n := countConns conns s.id
        let conns := addConns conns nid s.id n s.maxConn
        let nid := nid + (s.maxConn - n)
        let levels ← addLevel levels s.norm.toNat (max n s.maxConn : Nat) -- 132
        initLoop ss conns levels nid
      else initLoop ss conns levels nid
    else initLoop ss conns levels nid

/-- ServerPool.cpp:92-138 `InitConnections`. -/
def initConnections (tie : Nat → Nat) (p : Pool) : Option Pool := do
  let p := normalizeLevels tie p
  let (conns, levels, nid) ← initLoop p.servers p.conns [] p.nextId
  pure { p with
    servers := p.servers.map (fun s => { s with blockTime := 0 })  -- 103
    conns := conns, levels := levels, nextId := nid, generation := p.generation + 1 }

/-- ServerPool.cpp:269-280 `IsServerBlocked`. -/
def isBlocked (retry now : Int) (s : Server) : Bool :=
  if s.blockTime = 0 then false
  else decide (s.blockTime ≤ now) && decide (now < s.blockTime + retry)

/-- Same server, or another one of the same group (ServerPool.cpp:184-185). -/
def wanted (want : Option Server) (s : Server) : Bool :=
  match want with
  | none => true
  | some w => w.id == s.id || (decide (w.group > 0) && w.group == s.group)

/-- ServerPool.cpp:193-202: excluded by the list of servers to ignore. -/
def ignored (ign : List Server) (s : Server) : Bool :=
  ign.any (fun i => i.id == s.id || (decide (i.group > 0) && i.group == s.group && decide (i.norm = s.norm)))

/-- ServerPool.cpp:182-187: may this connection be used for the request? -/
def eligible (retry now : Int) (level : Int) (want : Option Server) (c : PConn) (s : Server) : Bool :=
  !c.inUse && s.active && decide (s.norm = level) && wanted want s && (c.connected || !isBlocked retry now s)

/-- ServerPool.cpp:179-212: the candidates, and the servers with the block times that were reset. The
servers to ignore are given by id. -/
def scan (retry now : Int) (level : Int) (want : Option Nat) (ign : List Nat) :
    List PConn → List Server → List PConn × List Server
  | [], ss => ([], ss)
  | c :: cs, ss =>
    match findServer ss c.srv with
    | none => scan retry now level want ign cs ss
    | some s =>
      if eligible retry now level (want.bind (findServer ss)) c s then
        let use := !(want.isNone && ignored (ign.filterMap (findServer ss)) s) -- 190-203
        let r := scan retry now level want ign cs (updServer ss c.srv (fun s => { s with blockTime := 0 })) -- 205
        (if use then c :: r.1 else r.1, r.2)
      else scan retry now level want ign cs ss

/-- ServerPool.cpp:168-230 `LockedGetConnection`; `rand` is the random number. -/
def lockedGet (p : Pool) (level : Nat) (want : Option Nat) (ign : List Nat) (now : Int) (rand : Nat) :
    Option PConn × Pool :=
  if p.levels.getD level 0 = 0 then (none, p) else                 -- 170-173
  let r := scan p.retry now level want ign p.conns p.servers
  let p := { p with servers := r.2 }
  match r.1[rand % r.1.length]? with
  | none => (none, p)
  | some c =>
    (some c, { p with
      conns := p.conns.map (fun x => if x.id = c.id then { x with inUse := true } else x) -- 221
      levels := p.levels.set level (p.levels.getD level 0 - 1) })  -- 226

/-- ServerPool.cpp:155-162: is there a server of the level that must be waited for? -/
def mustWait (p : Pool) (level : Nat) (now : Int) : Bool :=
  p.servers.any (fun s => decide (s.norm = level) && s.active && !(s.optional && isBlocked p.retry now s))

/-- ServerPool.cpp:147-163, the loop over the levels. -/
def getLoop : Nat → Pool → Nat → Option Nat → List Nat → Int → Nat → Option PConn × Pool
  | 0, p, _, _, _, _, _ => (none, p)
  | fuel + 1, p, level, want, ign, now, rand =>
    if level < p.levels.length ∧ p.levels.getD level 0 > 0 then
      match lockedGet p level want ign now rand with
      | (some c, p) => (some c, p)
      | (none, p) => if mustWait p level now then (none, p) else getLoop fuel p (level + 1) want ign now rand
    else (none, p)

/-- ServerPool.cpp:143-166 `GetConnection`. -/
def getConnection (p : Pool) (level : Nat) (want : Option Nat) (ign : List Nat) (now : Int) (rand : Nat) :
    Option PConn × Pool := getLoop (p.levels.length + 1) p level want ign now rand

/-- ServerPool.cpp:232-251 `FreeConnection`; `none` is an access out of bounds, also for a connection
object that does not exist any more. -/
def freeConnection (p : Pool) (id : Nat) (used : Bool) (now : Int) : Option Pool := do
  let c ← p.conns.find? (fun c => c.id == id)
  let s ← findServer p.servers c.srv
  let p := { p with conns := p.conns.map (fun x => if x.id = id then
    { x with inUse := false, freeTime := if used then now else x.freeTime } else x) }
  if s.norm > -1 ∧ s.active = true then do
    let levels ← addLevel p.levels s.norm.toNat 1
    pure { p with levels := levels }
  else pure p

/-- ServerPool.cpp:253-267 `BlockServer`. -/
def blockServer (p : Pool) (srv : Nat) (now : Int) : Pool :=
  { p with servers := updServer p.servers srv (fun s => { s with blockTime := now }) }

/-- `NewsServer::SetActive`, called by the scheduler and the API before `Changed` (Scheduler.cpp, XmlRpc.cpp). -/
def setActive (p : Pool) (srv : Nat) (b : Bool) : Pool :=
  { p with servers := updServer p.servers srv (fun s => { s with active := b }) }

/-- ServerPool.cpp:289-305: delete the unused connections of disabled servers. -/
def removable (ss : List Server) (c : PConn) : Bool :=
  !c.inUse && (match findServer ss c.srv with
    | none => false
    | some s => decide (s.norm = -1) || !s.active)

/-- Norm level of a connection's server. -/
def connNorm (ss : List Server) (c : PConn) : Option Int := (findServer ss c.srv).map (·.norm)

/-- ServerPool.cpp:308-347, one level: disconnect idle connections (they stay in the pool). The `break`
at 320 only skips the computation of an unused value. -/
def closeLevel (p : Pool) (level : Nat) (now : Int) : Pool :=
  let onLevel := p.conns.filter (fun c => connNorm p.servers c == some (level : Int))
  let busy := onLevel.any (·.inUse)
  let idle := onLevel.foldl (fun m c => if now - c.freeTime > m then now - c.freeTime else m) 0
  if !busy && decide (idle > 5) then
    { p with conns := p.conns.map (fun c => if connNorm p.servers c == some (level : Int) then { c with connected := false } else c) }
  else p

/-- ServerPool.cpp:282-348 `CloseUnusedConnections`. -/
def closeUnused (p : Pool) (now : Int) : Pool :=
  let p := { p with conns := p.conns.filter (fun c => !removable p.servers c) }
  (List.range (p.maxNorm + 1)).foldl (fun p l => closeLevel p l now) p

/-- Connecting and disconnecting by the owner of a connection (NntpConnection). -/
def setConnected (p : Pool) (id : Nat) (b : Bool) : Pool :=
  { p with conns := p.conns.map (fun c => if c.id = id then { c with connected := b } else c) }

/-- The operations of the pool with the outcome of clock and random number generator. -/
inductive Op where
  | init (tie : Nat → Nat)
  | get (level : Nat) (want : Option Nat) (ign : List Nat) (now : Int) (rand : Nat)
  | free (id : Nat) (used : Bool) (now : Int)
  | block (srv : Nat) (now : Int)
  | setActive (srv : Nat) (b : Bool)
  | closeUnused (now : Int)
  | setConnected (id : Nat) (b : Bool)

/-- What a caller sees of an operation. -/
inductive Event where
  | granted (id : Nat)
  | released (id : Nat)
  deriving DecidableEq, Repr

/-- One operation; `none` is undefined behaviour. -/
def apply (p : Pool) : Op → Option (Pool × List Event)
  | .init tie => (initConnections tie p).map (fun p => (p, []))
  | .get l w i n r => match getConnection p l w i n r with
    | (some c, p) => some (p, [.granted c.id])
    | (none, p) => some (p, [])
  | .free id u n => (freeConnection p id u n).map (fun p => (p, [.released id]))
  | .block s n => some (blockServer p s n, [])
  | .setActive s b => some (setActive p s b, [])
  | .closeUnused n => some (closeUnused p n, [])
  | .setConnected id b => some (setConnected p id b, [])

/-- A history of operations. -/
def run : Pool → List Op → Option (Pool × List Event)
  | p, [] => some (p, [])
  | p, op :: ops => do
    let (p, e) ← apply p op
    let (p, es) ← run p ops
    pure (p, e ++ es)

/-- The pool at program start: servers added (ServerPool.cpp:34-40), no connections. -/
def start (servers : List Server) (retry : Int) : Pool := { servers := servers, retry := retry }

end Verif.Pool
