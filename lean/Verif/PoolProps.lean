import Verif.PoolSteps
/-!
Properties C09 – C12 of the news server connection pool.
-/
namespace Verif.Pool

/-! ## C09: exclusive use, MaxConnections -/

/-- C09. Start with any servers; perform any operations with any outcome of clock and random numbers.
If the callers see a connection granted twice then it was released between. -/
theorem connection_exclusive (servers : List Server) (retry : Int) (hid : (servers.map (·.id)).Nodup)
    (ops : List Op) (p : Pool) (es : List Event) (h : run (start servers retry) ops = some (p, es))
    (pre mid post : List Event) (id : Nat)
    (he : es = pre ++ .granted id :: (mid ++ .granted id :: post)) : Event.released id ∈ mid := by
  have hi := inv_start servers retry hid
  generalize start servers retry = p0 at h hi
  induction ops generalizing p0 es pre with
  | nil =>
    simp only [run, Option.some.injEq, Prod.mk.injEq] at h
    rw [← h.2] at he
    exact absurd he (by simp)
  | cons op ops ih =>
    obtain ⟨q, e, es', h1, h2, h3⟩ := run_cons h
    have hq := inv_apply hi h1
    rcases apply_events hi h1 with e0 | ⟨id', e0, hu, _⟩ | ⟨id', u, n, e0, _⟩
    · rw [e0] at h3
      exact ih es' pre (by rw [← he, h3]; rfl) q h2 hq
    · rw [he, e0] at h3
      cases pre with
      | nil =>
        simp only [List.nil_append, List.singleton_append, List.cons.injEq, Event.granted.injEq] at h3
        exact run_held ops hq h2 (by rw [h3.1]; exact hu) mid post h3.2.symm
      | cons x pre =>
        simp only [List.cons_append, List.singleton_append, List.cons.injEq, List.nil_append] at h3
        exact ih es' pre h3.2.symm q h2 hq
    · rw [he, e0] at h3
      cases pre with
      | nil => simp at h3
      | cons x pre =>
        simp only [List.cons_append, List.singleton_append, List.cons.injEq, List.nil_append] at h3
        exact ih es' pre h3.2.symm q h2 hq

/-- C09. At every moment a server has at most its maximum of connections in the pool. -/
theorem max_connections (servers : List Server) (retry : Int) (hid : (servers.map (·.id)).Nodup)
    (ops : List Op) (p : Pool) (es : List Event) (h : run (start servers retry) ops = some (p, es)) :
    ∀ s ∈ p.servers, (p.conns.filter (fun c => c.srv == s.id)).length ≤ s.maxConn :=
  (run_inv ops (inv_start servers retry hid) h).cmax

/-- The connections held by callers after seeing the events. -/
def holding : List Event → List Nat → List Nat
  | [], held => held
  | .granted id :: es, held => holding es (id :: held)
  | .released id :: es, held => holding es (held.erase id)

/-- Callers release only connections they hold. -/
def Disciplined : List Nat → Pool → List Op → Prop
  | _, _, [] => True
  | held, p, op :: ops => (∀ id u n, op = .free id u n → id ∈ held) ∧
      ∀ p' es, apply p op = some (p', es) → Disciplined (holding es held) p' ops

theorem held_step {p p' : Pool} (hi : Inv p) {op : Op} {es : List Event} (h : apply p op = some (p', es)) {held : List Nat}
    (hnd : held.Nodup) (hh : ∀ id ∈ held, InUse p id) :
    (holding es held).Nodup ∧ ∀ id ∈ holding es held, InUse p' id := by
  rcases apply_events hi h with e0 | ⟨id', e0, hu, hn⟩ | ⟨id', u, n, e0, _⟩
  · rw [e0] at h ⊢
    exact ⟨hnd, fun id hid => (apply_held hi h (hh id hid) (by simp)).1⟩
  · rw [e0] at h ⊢
    simp only [holding]
    refine ⟨List.nodup_cons.2 ⟨fun hm => hn (hh _ hm), hnd⟩, ?_⟩
    intro id hid
    rcases List.mem_cons.1 hid with rfl | hid
    · exact hu
    · exact (apply_held hi h (hh id hid) (by simp)).1
  · rw [e0] at h ⊢
    simp only [holding]
    refine ⟨hnd.erase _, ?_⟩
    intro id hid
    have hm := hnd.mem_erase_iff.1 hid
    exact (apply_held hi h (hh id hm.2) (by simpa using hm.1)).1

theorem disciplined_run (ops : List Op) : ∀ {p : Pool} {held : List Nat}, Inv p → held.Nodup → (∀ id ∈ held, InUse p id) →
    Disciplined held p ops → ∃ r, run p ops = some r := by
  induction ops with
  | nil => intro p held _ _ _ _; exact ⟨_, rfl⟩
  | cons op ops ih =>
    intro p held hi hnd hh hd
    obtain ⟨⟨q, e⟩, h1⟩ := apply_some hi op (fun id u n ho => hh id (hd.1 id u n ho))
    obtain ⟨h3, h4⟩ := held_step hi h1 hnd hh
    obtain ⟨⟨q', es⟩, h2⟩ := ih (inv_apply hi h1) h3 h4 (hd.2 q e h1)
    exact ⟨(q', e ++ es), by rw [run, h1]; simp only [Option.bind_eq_bind, Option.bind_some, h2]; rfl⟩

/-- C09/C12. If callers release only what they hold, no operation of any history accesses a counter out
of bounds or a connection that was deleted. -/
theorem pool_never_fails (servers : List Server) (retry : Int) (hid : (servers.map (·.id)).Nodup)
    (ops : List Op) (h : Disciplined [] (start servers retry) ops) : (run (start servers retry) ops).isSome = true := by
  obtain ⟨r, hr⟩ := disciplined_run ops (inv_start servers retry hid) List.nodup_nil (by simp) h
  rw [hr]; rfl

/-! ## C10: which connection is handed out -/

/-- Specification: the server failed at `blockTime` and the retry interval after that is not over. -/
def InBlockInterval (retry now : Int) (s : Server) : Prop :=
  s.blockTime ≠ 0 ∧ s.blockTime ≤ now ∧ now < s.blockTime + retry

theorem isBlocked_iff (retry now : Int) (s : Server) :
    isBlocked retry now s = true ↔ InBlockInterval retry now s := by
  unfold isBlocked InBlockInterval
  by_cases h : s.blockTime = 0 <;> simp [h]

theorem not_isBlocked_iff (retry now : Int) (s : Server) :
    isBlocked retry now s = false ↔ ¬ InBlockInterval retry now s := by
  rw [← isBlocked_iff]; simp

/-- C10. If a request in any pool state with distinct servers gets connection `c` then `c` was idle, its
server is active, on the requested or a worse level, matches the wanted server, is not excluded, and
every active server of the levels in between is optional and blocked. -/
theorem granted_connection_allowed (p p' : Pool) (hid : (p.servers.map (·.id)).Nodup) (level : Nat) (want : Option Server)
    (hw : ∀ w, want = some w → w ∈ p.servers) (ign : List Nat) (now : Int) (rand : Nat) (c : PConn)
    (h : getConnection p level (want.map (·.id)) ign now rand = (some c, p')) :
    c ∈ p.conns ∧ c.inUse = false ∧ ∃ s ∈ p.servers, s.id = c.srv ∧ s.active = true ∧ (level : Int) ≤ s.norm ∧
      (∀ w, want = some w → s = w ∨ (w.group > 0 ∧ s.group = w.group)) ∧
      (want = none → ∀ i ∈ p.servers, i.id ∈ ign → i ≠ s ∧ ¬ (i.group > 0 ∧ i.group = s.group ∧ i.norm = s.norm)) ∧
      (InBlockInterval p.retry now s → ∃ d ∈ p.conns, d.srv = s.id ∧ d.inUse = false ∧ d.connected = true) ∧
      (∀ t ∈ p.servers, (level : Int) ≤ t.norm → t.norm < s.norm → t.active = true →
        t.optional = true ∧ InBlockInterval p.retry now t) := by
  obtain ⟨g, h1 | ⟨d, s, lv, hl, _, _, hsk, hch, h1⟩⟩ := getConnection_spec p level (want.map (·.id)) ign now rand hid
  · rw [h] at h1; injection h1 with h1; cases h1
  · rw [h] at h1
    injection h1 with h1 h1'
    injection h1 with h1
    subst h1
    obtain ⟨hsm, hse⟩ := findServer_mem hch.smem
    refine ⟨hch.mem, hch.idle, s, hsm, hse, hch.active, ?_, ?_, ?_, ?_, ?_⟩
    · rw [hch.norm]; omega
    · intro w hww
      subst hww
      have hf := find_eq_of_nodup hid (hw w rfl)
      have := hch.wants
      simp only [Option.map_some, Option.bind_some, hf, wanted, Bool.or_eq_true, beq_iff_eq, Bool.and_eq_true, decide_eq_true_eq] at this
      rcases this with e | e
      · left
        have h2 := find_eq_of_nodup hid hsm
        rw [← e, hf] at h2
        injection h2 with h2; exact h2.symm
      · right; exact ⟨e.1, e.2.symm⟩
    · intro hwn i hi hign
      subst hwn
      have := hch.ignores rfl
      unfold ignored at this
      rw [List.any_eq_false] at this
      have hx := this i (List.mem_filterMap.2 ⟨i.id, hign, find_eq_of_nodup hid hi⟩)
      simp only [Bool.or_eq_true, beq_iff_eq, Bool.and_eq_true, decide_eq_true_eq, not_or] at hx
      refine ⟨fun e => hx.1 (by rw [e]), fun e => hx.2 ⟨⟨e.1, e.2.1⟩, e.2.2⟩⟩
    · intro hb
      rw [← isBlocked_iff] at hb
      rcases hch.open_ with e | ⟨x, h2, h3, h4, h5⟩
      · rw [hb] at e; cases e
      · exact ⟨x, h2, h3, h4, h5⟩
    · intro t ht h2 h3 h4
      rw [hch.norm] at h3
      rw [← isBlocked_iff]
      exact hsk t ht h2 h3 h4

/-- C10. A request on a level whose counter is positive is served whenever some idle connection of the
level is allowed: an unexcluded active server matching the wanted one, not blocked or still connected. -/
theorem request_served_if_counter (p : Pool) (hid : (p.servers.map (·.id)).Nodup) (level : Nat) (want : Option Nat)
    (ign : List Nat) (now : Int) (rand : Nat) (hlev : level < p.levels.length) (hpos : p.levels.getD level 0 > 0)
    (c : PConn) (s : Server) (hc : c ∈ p.conns) (hs : s ∈ p.servers) (hse : s.id = c.srv)
    (hidle : c.inUse = false) (hact : s.active = true) (hnorm : s.norm = level) (hopen' : c.connected = true ∨ ¬ InBlockInterval p.retry now s)
    (hallow : wanted (want.bind (findServer p.servers)) s = true)
    (hign : want = none → ignored (ign.filterMap (findServer p.servers)) s = false) :
    ∃ d p', getConnection p level want ign now rand = (some d, p') := by
  have hopen := hopen'
  rw [← not_isBlocked_iff] at hopen
  unfold getConnection
  rw [getLoop, if_pos ⟨hlev, hpos⟩]
  obtain ⟨g, _, h1 | ⟨d, t, _, h1⟩⟩ := lockedGet_spec p level want ign now rand hid (fun _ => false) (fun _ _ h => by cases h)
  · exfalso
    have hf : findServer p.servers c.srv = some s := by rw [← hse]; exact find_eq_of_nodup hid hs
    have := h1.2 (by omega) c hc s hf (by
      unfold eligible
      simp only [hidle, hact, hnorm, hallow, Bool.not_false, decide_true, Bool.true_and, Bool.or_eq_true, Bool.not_eq_true']
      exact hopen)
    rw [hign this.1] at this
    cases this.2
  · rw [reset_none] at h1
    have hpp : ({ p with servers := p.servers } : Pool) = p := rfl
    rw [hpp] at h1
    rw [h1]; exact ⟨_, _, rfl⟩

/-! ## C11: normalised levels -/

/-- C11. After `Init` of any non-empty server list: a server has a level iff it is active with connections or of the lowest configured
level; such servers are ordered as configured, without holes from 0 up to the maximum; the servers are
the configured ones. -/
theorem levels_normalised (tie : Nat → Nat) (p : Pool) (hne : p.servers ≠ []) :
    let q := normalizeLevels tie p
    let lowest := fun s : Server => ∀ t ∈ p.servers, s.level ≤ t.level
    let inUse := fun s : Server => (s.active = true ∧ 0 < s.maxConn) ∨ lowest s
    (q.servers.map base).Perm (p.servers.map base) ∧
    (∀ s ∈ q.servers, inUse s → 0 ≤ s.norm ∧ s.norm ≤ q.maxNorm) ∧
    (∀ s ∈ q.servers, ¬ inUse s → s.norm = -1) ∧
    (∀ s ∈ q.servers, lowest s → s.norm = 0) ∧
    (∀ s ∈ q.servers, ∀ t ∈ q.servers, inUse s → inUse t → (s.norm < t.norm ↔ s.level < t.level)) ∧
    (∀ k : Nat, k ≤ q.maxNorm → ∃ s ∈ q.servers, inUse s ∧ s.norm = k) := by
  intro q lowest inUse
  rcases normalizeLevels_eq tie p with ⟨h0, _⟩ | ⟨s0, ss, h1, hmin, h⟩
  · exact absurd h0 hne
  have hq : q = { p with
        servers := (normWalk s0.level s0.level 0 (s0 :: ss)).1
        maxNorm := (normWalk s0.level s0.level 0 (s0 :: ss)).2 } := h
  have hqs : q.servers = (normWalk s0.level s0.level 0 (s0 :: ss)).1 := by rw [hq]
  have hqm : q.maxNorm = (normWalk s0.level s0.level 0 (s0 :: ss)).2 := by rw [hq]
  have hsort : (s0 :: ss).Pairwise (fun a b => a.level ≤ b.level) := by rw [← h1]; exact sortServers_sorted tie p.servers
  have hperm : (s0 :: ss).Perm p.servers := by rw [← h1]; exact sortServers_perm tie p.servers
  have hbase := @perm_base tie p
  -- lowest = level of the first
  have hlow : ∀ s ∈ q.servers, lowest s ↔ s.level = s0.level := by
    intro s hs
    obtain ⟨t, ht, e⟩ := base_exists hbase hs
    have e' := (base_fields e).2.1
    constructor
    · intro hl
      have h1 := hl s0 (hperm.mem_iff.1 (by simp))
      have h2 := hmin t (hperm.mem_iff.2 ht)
      omega
    · intro hl x hx
      rw [hl]; exact hmin x (hperm.mem_iff.2 hx)
  have hus : ∀ s ∈ q.servers, inUse s ↔ usable s0.level s = true := by
    intro s hs
    simp only [inUse, hlow s hs, usable, Bool.or_eq_true, Bool.and_eq_true, decide_eq_true_eq, gt_iff_lt]
  have hone := normWalk_one s0.level (s0 :: ss) s0.level 0 hsort hmin
  have hpair := normWalk_pair s0.level (s0 :: ss) s0.level 0 hsort hmin
  rw [← hqs] at hone hpair
  rw [← hqm] at hone
  refine ⟨hbase, ?_, ?_, ?_, ?_, ?_⟩
  · intro s hs hu
    obtain ⟨a, b, _⟩ := (hone s hs).2.1 ((hus s hs).1 hu)
    exact ⟨by simpa using a, b⟩
  · intro s hs hu
    exact (hone s hs).1 (by simpa using fun e => hu ((hus s hs).2 e))
  · intro s hs hl
    obtain ⟨_, _, c⟩ := (hone s hs).2.1 ((hus s hs).1 (Or.inr hl))
    simpa using c.2 ((hlow s hs).1 hl)
  · intro s hs t ht hu hv
    have hrel : ∀ a b : Server, a ∈ q.servers → b ∈ q.servers →
        (a.level ≤ b.level ∧ a.norm ≤ b.norm ∧ (a.norm = b.norm ↔ a.level = b.level)) ∨
        (b.level ≤ a.level ∧ b.norm ≤ a.norm ∧ (b.norm = a.norm ↔ b.level = a.level)) ∨ usable s0.level a = false ∨ usable s0.level b = false := by
      intro a b ha hb
      have hlv : q.servers.Pairwise (fun a b => a.level ≤ b.level) := by
        rw [hqs]
        have : ((normWalk s0.level s0.level 0 (s0 :: ss)).1.map base).Pairwise (fun a b => a.level ≤ b.level) := by
          rw [normWalk_base]
          exact (List.pairwise_map (f := base) (R := fun a b : Server => a.level ≤ b.level)).2 hsort
        exact (List.pairwise_map (f := base) (R := fun a b : Server => a.level ≤ b.level)).1 this
      have hboth := hpair.and hlv
      have := List.Pairwise.forall_of_forall_of_flip (l := q.servers)
        (R := fun a b => (a.level ≤ b.level ∧ a.norm ≤ b.norm ∧ (a.norm = b.norm ↔ a.level = b.level)) ∨
        (b.level ≤ a.level ∧ b.norm ≤ a.norm ∧ (b.norm = a.norm ↔ b.level = a.level)) ∨ usable s0.level a = false ∨ usable s0.level b = false)
        (fun x _ => Or.inl ⟨Int.le_refl _, Int.le_refl _, by simp⟩)
        (hboth.imp (by
          intro x y hxy
          by_cases hx : usable s0.level x = true
          · by_cases hy : usable s0.level y = true
            · exact Or.inl ⟨hxy.2, (hxy.1 hx hy).1, (hxy.1 hx hy).2⟩
            · exact Or.inr (Or.inr (Or.inr (by simpa using hy)))
          · exact Or.inr (Or.inr (Or.inl (by simpa using hx)))))
        (hboth.imp (by
          intro x y hxy
          by_cases hx : usable s0.level x = true
          · by_cases hy : usable s0.level y = true
            · exact Or.inr (Or.inl ⟨hxy.2, (hxy.1 hx hy).1, (hxy.1 hx hy).2⟩)
            · exact Or.inr (Or.inr (Or.inl (by simpa using hy)))
          · exact Or.inr (Or.inr (Or.inr (by simpa using hx)))))
      exact this ha hb
    have hus' := (hus s hs).1 hu
    have hut' := (hus t ht).1 hv
    rcases hrel s t hs ht with r | r | r | r
    · omega
    · omega
    · rw [hus'] at r; cases r
    · rw [hut'] at r; cases r
  · intro k hk
    by_cases h0 : k = 0
    · subst h0
      have hmem : s0.level = s0.level := rfl
      have hfirst : ∃ s ∈ q.servers, s.level = s0.level := by
        have : base s0 ∈ q.servers.map base := hbase.mem_iff.2 (List.mem_map_of_mem (hperm.mem_iff.1 (by simp)))
        obtain ⟨s, hs, e⟩ := List.mem_map.1 this
        exact ⟨s, hs, (base_fields e).2.1⟩
      obtain ⟨s, hs, e⟩ := hfirst
      have hl := (hlow s hs).2 e
      obtain ⟨_, _, c⟩ := (hone s hs).2.1 ((hus s hs).1 (Or.inr hl))
      exact ⟨s, hs, Or.inr hl, c.2 e⟩
    · rw [hqm] at hk
      obtain ⟨s, hs, hu, e⟩ := normWalk_onto s0.level (s0 :: ss) s0.level 0 k (by omega) hk
      rw [← hqs] at hs
      exact ⟨s, hs, (hus s hs).2 hu, e⟩

/-! ## C12: the counters of free connections -/

/-- The operations other than reconfiguration. -/
def Op.quiet : Op → Prop
  | .init _ => False
  | .setActive _ _ => False
  | _ => True

theorem run_drift (ops : List Op) : ∀ {p p' : Pool} {es : List Event} {held : List Nat}, Inv p → held.Nodup → (∀ id ∈ held, InUse p id) →
    Disciplined held p ops → (∀ op ∈ ops, op.quiet) → run p ops = some (p', es) → ∀ l,
    p'.levels.getD l 0 - freeOn p' l = p.levels.getD l 0 - freeOn p l := by
  induction ops with
  | nil =>
    intro p p' es held _ _ _ _ _ h l
    simp only [run, Option.some.injEq, Prod.mk.injEq] at h
    rw [h.1]
  | cons op ops ih =>
    intro p p' es held hi hnd hh hd hq h l
    obtain ⟨q, e, es', h1, h2, _⟩ := run_cons h
    obtain ⟨h3, h4⟩ := held_step hi h1 hnd hh
    rw [ih (inv_apply hi h1) h3 h4 (hd.2 q e h1) (fun o ho => hq o (by simp [ho])) h2 l]
    have hqo := hq op (by simp)
    exact apply_drift hi h1 (by intro t e; rw [e] at hqo; exact hqo) (by intro s b e; rw [e] at hqo; exact hqo)
      (fun id u n ho => hh id (hd.1 id u n ho)) l

/-- C12 (what holds). After any history and a reconfiguration and then any operations other than reconfigurations
in which callers release what they hold: the counter of every level is the number of free
connections of its active servers plus the number of those which were in use at the reconfiguration. -/
theorem level_counter_partial (servers : List Server) (retry : Int) (hid : (servers.map (·.id)).Nodup)
    (ops1 ops2 : List Op) (tie : Nat → Nat) (p1 q p2 : Pool) (es1 es2 : List Event)
    (h1 : run (start servers retry) ops1 = some (p1, es1)) (hi : initConnections tie p1 = some q)
    (h2 : run q ops2 = some (p2, es2)) (hquiet : ∀ op ∈ ops2, op.quiet)
    (hd2 : Disciplined (holding es1 []) q ops2) (l : Nat) :
    p2.levels.getD l 0 = freeOn p2 l + busyOn q l := by
  have hinv := inv_start servers retry hid
  have hheld : ∀ (ops : List Op) (p p' : Pool) (es : List Event) (held : List Nat), Inv p → held.Nodup → (∀ id ∈ held, InUse p id) →
      run p ops = some (p', es) → (holding es held).Nodup ∧ ∀ id ∈ holding es held, InUse p' id := by
    intro ops
    induction ops with
    | nil =>
      intro p p' es held _ a b h
      simp only [run, Option.some.injEq, Prod.mk.injEq] at h
      rw [← h.1, ← h.2]; exact ⟨a, b⟩
    | cons op ops ih =>
      intro p p' es held hi a b h
      obtain ⟨r, e, es', g1, g2, g3⟩ := run_cons h
      obtain ⟨g4, g5⟩ := held_step hi g1 a b
      have := ih r p' es' _ (inv_apply hi g1) g4 g5 g2
      rw [g3]
      have hh : ∀ (x y : List Event) (z : List Nat), holding (x ++ y) z = holding y (holding x z) := by
        intro x
        induction x with
        | nil => intro y z; rfl
        | cons a x ihx => intro y z; cases a <;> simp only [List.cons_append, holding, ihx]
      rw [hh]; exact this
  have hp1 := run_inv ops1 hinv h1
  have hhold := hheld ops1 _ _ _ [] hinv List.nodup_nil (by simp) h1
  have ha : apply p1 (.init tie) = some (q, []) := by simp only [apply, hi]; rfl
  have hhold2 := held_step hp1 ha hhold.1 hhold.2
  have := run_drift ops2 (inv_apply hp1 ha) hhold2.1 hhold2.2 hd2 hquiet h2 l
  rw [init_drift tie hp1 hi l] at this
  omega

/-- C12, exact case: no connection of the level was in use at the last reconfiguration. -/
theorem level_counter_exact (servers : List Server) (retry : Int) (hid : (servers.map (·.id)).Nodup)
    (ops1 ops2 : List Op) (tie : Nat → Nat) (p1 q p2 : Pool) (es1 es2 : List Event)
    (h1 : run (start servers retry) ops1 = some (p1, es1)) (hi : initConnections tie p1 = some q)
    (h2 : run q ops2 = some (p2, es2)) (hquiet : ∀ op ∈ ops2, op.quiet)
    (hd2 : Disciplined (holding es1 []) q ops2) (l : Nat)
    (hbusy : ∀ c ∈ q.conns, c.inUse = false) :
    p2.levels.getD l 0 = freeOn p2 l := by
  have := level_counter_partial servers retry hid ops1 ops2 tie p1 q p2 es1 es2 h1 hi h2 hquiet hd2 l
  have hb : busyOn q l = 0 := by
    unfold busyOn
    rw [List.countP_eq_zero]
    intro c hc; simp [hbusy c hc]
  omega

/-- C10 and C12 together: after a reconfiguration at any time, a request is always served if some idle
connection of the level is allowed. -/
theorem request_served (servers : List Server) (retry : Int) (hid : (servers.map (·.id)).Nodup)
    (ops1 ops2 : List Op) (tie : Nat → Nat) (p1 q p : Pool) (es1 es2 : List Event)
    (h1 : run (start servers retry) ops1 = some (p1, es1)) (hi : initConnections tie p1 = some q)
    (h2 : run q ops2 = some (p, es2)) (hquiet : ∀ op ∈ ops2, op.quiet)
    (hd2 : Disciplined (holding es1 []) q ops2)
    (level : Nat) (want : Option Nat) (ign : List Nat) (now : Int) (rand : Nat)
    (c : PConn) (s : Server) (hc : c ∈ p.conns) (hs : s ∈ p.servers) (hse : s.id = c.srv)
    (hidle : c.inUse = false) (hact : s.active = true) (hnorm : s.norm = level) (hopen' : c.connected = true ∨ ¬ InBlockInterval p.retry now s)
    (hallow : wanted (want.bind (findServer p.servers)) s = true)
    (hign : want = none → ignored (ign.filterMap (findServer p.servers)) s = false) :
    ∃ d p', getConnection p level want ign now rand = (some d, p') := by
  have hp1 := run_inv ops1 (inv_start servers retry hid) h1
  have ha : apply p1 (.init tie) = some (q, []) := by simp only [apply, hi]; rfl
  have hp := run_inv ops2 (inv_apply hp1 ha) h2
  have hcnt := level_counter_partial servers retry hid ops1 ops2 tie p1 q p es1 es2 h1 hi h2 hquiet hd2 level
  have hfree : 0 < freeOn p level := by
    unfold freeOn
    rw [List.countP_pos_iff]
    exact ⟨c, hc, by rw [onLevel_iff hp.sid hs hse]; simp [hidle, hact, hnorm]⟩
  have hlen := hp.clev (by intro h; rw [h] at hc; simp at hc) s hs
  exact request_served_if_counter p hp.sid level want ign now rand (by omega) (by omega) c s hc hs hse hidle hact hnorm hopen' hallow hign

/-! ### Witnesses -/

/-- Two servers on levels 3 and 7. -/
def exServers : List Server :=
  [{ id := 10, level := 7, active := true, maxConn := 2 },
   { id := 11, level := 3, active := true, maxConn := 1, optional := true }]

/-- C12 as stated is wrong: a reconfiguration while a connection is in use counts it as free. -/
theorem level_counter_wrong :
    (run (start exServers 10) [.init id, .get 0 none [] 0 0, .init id]).map (fun r => (r.1.levels.getD 0 0, freeOn r.1 0)) = some (1, 0) := by
  decide +kernel

/-- The same without a reconfiguration: exact. A history with grants, blocking and releases. -/
example : (run (start exServers 10) [.init id, .get 0 none [] 0 0, .get 1 none [] 0 1, .block 11 3, .free 0 true 4, .get 0 none [] 5 0]).map
    (fun r => (r.2, r.1.levels, freeOn r.1 0, freeOn r.1 1)) =
    some ([.granted 0, .granted 2, .released 0, .granted 1], [1, 0], 1, 0) := by
  decide +kernel

/-- A disciplined history exists: hypothesis of `pool_never_fails`. -/
example : Disciplined [] (start exServers 10) [.init id, .get 0 none [] 0 0, .free 0 true 4] := by
  refine ⟨fun _ _ _ h => (by cases h), fun p' es h => ⟨fun _ _ _ h => (by cases h), fun p'' es' h' => ⟨?_, fun _ _ _ => trivial⟩⟩⟩
  have h0 : (apply (start exServers 10) (.init id)).map (fun r => (apply r.1 (.get 0 none [] 0 0)).map (fun x => holding x.2 (holding r.2 []))) =
    some (some [0]) := by decide +kernel
  rw [h] at h0
  simp only [Option.map_some, h'] at h0
  injection h0 with h0; injection h0 with h0
  rw [h0]
  intro i u n e
  cases e; simp

/-- Three configured levels, one of them disabled: hypothesis of `levels_normalised`. -/
example : (normalizeLevels id (start ({ id := 12, level := 5, active := false, maxConn := 4 } :: exServers) 10)).servers.map (fun s => (s.id, s.norm)) =
    [(11, 0), (12, -1), (10, 1)] := by decide +kernel

end Verif.Pool
