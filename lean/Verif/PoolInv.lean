import Verif.PoolLemmas
/-! The invariant of the connection pool and the effect of each operation. -/
namespace Verif.Pool

/-! ### Resetting block times -/

/-- The servers after the block times of those in `g` were reset. -/
def reset1 (g : Nat → Bool) (s : Server) : Server := if g s.id then { s with blockTime := 0 } else s
def reset (g : Nat → Bool) (ss : List Server) : List Server := ss.map (reset1 g)

theorem reset1_fields (g : Nat → Bool) (s : Server) : (reset1 g s).id = s.id ∧ (reset1 g s).active = s.active ∧
    (reset1 g s).norm = s.norm ∧ (reset1 g s).group = s.group ∧ (reset1 g s).optional = s.optional ∧
    (reset1 g s).maxConn = s.maxConn ∧ (reset1 g s).level = s.level := by
  unfold reset1; split <;> exact ⟨rfl, rfl, rfl, rfl, rfl, rfl, rfl⟩

theorem reset_none (ss : List Server) : reset (fun _ => false) ss = ss := by
  unfold reset; rw [List.map_congr_left (g := id)]
  · simp
  · intro a _; rfl

theorem findServer_mem {ss : List Server} {id : Nat} {s : Server} (h : findServer ss id = some s) : s ∈ ss ∧ s.id = id := by
  unfold findServer at h
  exact ⟨List.mem_of_find?_eq_some h, by simpa using List.find?_some h⟩

theorem findServer_reset (g : Nat → Bool) (ss : List Server) (id : Nat) :
    findServer (reset g ss) id = (findServer ss id).map (reset1 g) := by
  unfold findServer reset
  rw [List.find?_map]
  have : ((fun s : Server => s.id == id) ∘ reset1 g) = fun s => s.id == id := by
    funext s; simp [(reset1_fields g s).1]
  rw [this]

theorem upd_reset (g : Nat → Bool) (ss : List Server) (id : Nat) :
    updServer (reset g ss) id (fun s => { s with blockTime := 0 }) = reset (fun x => g x || x == id) ss := by
  unfold updServer reset
  rw [List.map_map]
  refine List.map_congr_left ?_
  intro s _
  simp only [Function.comp, (reset1_fields g s).1]
  unfold reset1
  by_cases h2 : s.id = id
  · subst h2; by_cases h1 : g s.id = true <;> simp [h1]
  · by_cases h1 : g s.id = true <;> simp [h1, h2]

theorem isBlocked_reset (r now : Int) (g : Nat → Bool) (s : Server) :
    isBlocked r now (reset1 g s) = (!g s.id && isBlocked r now s) := by
  unfold reset1
  by_cases h : g s.id = true
  · simp [h, isBlocked]
  · simp [h]

theorem wanted_reset (g : Nat → Bool) (w : Option Server) (s : Server) :
    wanted (w.map (reset1 g)) (reset1 g s) = wanted w s := by
  cases w with
  | none => rfl
  | some w => simp [wanted, (reset1_fields g s).1, (reset1_fields g w).1, (reset1_fields g s).2.2.2.1, (reset1_fields g w).2.2.2.1]

theorem ignored_reset (g : Nat → Bool) (l : List Server) (s : Server) :
    ignored (l.map (reset1 g)) (reset1 g s) = ignored l s := by
  unfold ignored
  rw [List.any_map]
  congr 1
  funext i
  simp [(reset1_fields g s).1, (reset1_fields g i).1, (reset1_fields g s).2.2.2.1, (reset1_fields g i).2.2.2.1,
    (reset1_fields g s).2.2.1, (reset1_fields g i).2.2.1]

theorem filterMap_reset (g : Nat → Bool) (ss : List Server) (ids : List Nat) :
    ids.filterMap (findServer (reset g ss)) = (ids.filterMap (findServer ss)).map (reset1 g) := by
  rw [List.map_filterMap]
  congr 1
  funext i
  rw [findServer_reset]

/-- Some idle connection to the server is still connected. -/
def Alive (conns : List PConn) (srv : Nat) : Prop := ∃ c ∈ conns, c.srv = srv ∧ c.inUse = false ∧ c.connected = true

/-- A reset block time is justified. -/
def Just (retry now : Int) (conns : List PConn) (g : Nat → Bool) (ss : List Server) : Prop :=
  ∀ s ∈ ss, g s.id = true → isBlocked retry now s = false ∨ Alive conns s.id

/-- What holds of a chosen connection and its server. -/
structure Chosen (retry now : Int) (level : Int) (want : Option Nat) (ign : List Nat) (conns : List PConn) (ss : List Server)
    (c : PConn) (s : Server) : Prop where
  mem : c ∈ conns
  idle : c.inUse = false
  smem : findServer ss c.srv = some s
  active : s.active = true
  norm : s.norm = level
  wants : wanted (want.bind (findServer ss)) s = true
  ignores : want = none → ignored (ign.filterMap (findServer ss)) s = false
  open_ : isBlocked retry now s = false ∨ Alive conns s.id

theorem find_eq_of_nodup {ss : List Server} (hnd : (ss.map (·.id)).Nodup) {s : Server} (h : s ∈ ss) :
    findServer ss s.id = some s := by
  unfold findServer
  induction ss with
  | nil => simp at h
  | cons t ss ih =>
    rw [List.map_cons, List.nodup_cons] at hnd
    rw [List.find?_cons]
    rcases List.mem_cons.1 h with rfl | h
    · simp
    · have : t.id ≠ s.id := fun e => hnd.1 (by rw [e]; exact List.mem_map_of_mem h)
      have hb : (t.id == s.id) = false := by simpa using this
      rw [hb]; exact ih hnd.2 h

theorem scan_spec (retry now level : Int) (want : Option Nat) (ign : List Nat) (all : List PConn) (ss0 : List Server)
    (hnd : (ss0.map (·.id)).Nodup) :
    ∀ (cs : List PConn) (g : Nat → Bool), (∀ c ∈ cs, c ∈ all) → Just retry now all g ss0 →
    ∃ g', (scan retry now level want ign cs (reset g ss0)).2 = reset g' ss0 ∧ Just retry now all g' ss0 ∧
      (∀ c ∈ (scan retry now level want ign cs (reset g ss0)).1, ∃ s, Chosen retry now level want ign all ss0 c s) ∧
      (∀ c ∈ cs, ∀ s, findServer ss0 c.srv = some s → eligible retry now level (want.bind (findServer ss0)) c s = true →
        ¬ (want = none ∧ ignored (ign.filterMap (findServer ss0)) s = true) →
        c ∈ (scan retry now level want ign cs (reset g ss0)).1) := by
  intro cs
  induction cs with
  | nil => intro g _ hj; exact ⟨g, rfl, hj, by simp [scan], by simp⟩
  | cons c cs ih =>
    intro g hall hj
    have hall' : ∀ x ∈ cs, x ∈ all := fun x hx => hall x (by simp [hx])
    rw [scan, findServer_reset]
    cases hf : findServer ss0 c.srv with
    | none =>
      simp only [Option.map_none]
      obtain ⟨g', h1, h2, h3, h4⟩ := ih g hall' hj
      refine ⟨g', h1, h2, h3, ?_⟩
      intro x hx s hs
      rcases List.mem_cons.1 hx with rfl | hx
      · rw [hf] at hs; cases hs
      · exact h4 x hx s hs
    | some s =>
      simp only [Option.map_some]
      have hw : want.bind (findServer (reset g ss0)) = (want.bind (findServer ss0)).map (reset1 g) := by
        cases want with
        | none => rfl
        | some w => simp only [Option.bind_some]; exact findServer_reset g ss0 w
      have hel : eligible retry now level (want.bind (findServer (reset g ss0))) c (reset1 g s) =
          (!c.inUse && s.active && decide (s.norm = level) && wanted (want.bind (findServer ss0)) s &&
            (c.connected || !(!g s.id && isBlocked retry now s))) := by
        rw [eligible, hw, wanted_reset, isBlocked_reset, (reset1_fields g s).2.1, (reset1_fields g s).2.2.1]
      rw [hel, filterMap_reset, ignored_reset]
      split
      · rename_i he
        simp only [Bool.and_eq_true, Bool.not_eq_true', decide_eq_true_eq, Bool.or_eq_true] at he
        obtain ⟨⟨⟨⟨e1, e2⟩, e3⟩, e4⟩, e5⟩ := he
        have hjust : isBlocked retry now s = false ∨ Alive all s.id := by
          rcases e5 with e5 | e5
          · right
            exact ⟨c, hall c (by simp), (findServer_mem hf).2.symm, e1, e5⟩
          · cases hg : g s.id with
            | true => exact hj s (findServer_mem hf).1 hg
            | false => left; simpa [hg] using e5
        rw [upd_reset]
        have hj' : Just retry now all (fun x => g x || x == c.srv) ss0 := by
          intro t ht hgt
          simp only [Bool.or_eq_true, beq_iff_eq] at hgt
          rcases hgt with hgt | hgt
          · exact hj t ht hgt
          · have := find_eq_of_nodup hnd ht
            rw [hgt, hf] at this
            injection this with this
            rw [← this]; exact hjust
        obtain ⟨g', h1, h2, h3, h4⟩ := ih _ hall' hj'
        refine ⟨g', h1, h2, ?_, ?_⟩
        · intro x hx
          have hch : (want = none → ignored (ign.filterMap (findServer ss0)) s = false) → ∃ s, Chosen retry now level want ign all ss0 c s :=
            fun hi => ⟨s, hall c (by simp), e1, hf, e2, e3, e4, hi, hjust⟩
          dsimp only at hx
          split at hx
          · rename_i hu
            rcases List.mem_cons.1 hx with rfl | hx
            · refine hch (fun hwn => ?_)
              subst hwn
              simpa using hu
            · exact h3 x hx
          · exact h3 x hx
        · intro x hx t ht1 ht2 ht3
          dsimp only
          rcases List.mem_cons.1 hx with rfl | hx
          · rw [hf] at ht1; injection ht1 with ht1; subst ht1
            rw [if_pos]
            · simp
            · cases want with
              | none => simpa using ht3
              | some w => simp
          · have := h4 x hx t ht1 ht2 ht3
            split
            · exact List.mem_cons_of_mem _ this
            · exact this
      · rename_i he
        obtain ⟨g', h1, h2, h3, h4⟩ := ih g hall' hj
        refine ⟨g', h1, h2, h3, ?_⟩
        intro x hx t ht1 ht2 ht3
        rcases List.mem_cons.1 hx with rfl | hx
        · rw [hf] at ht1; injection ht1 with ht1; subst ht1
          exfalso; apply he
          unfold eligible at ht2
          simp only [Bool.and_eq_true, Bool.not_eq_true', decide_eq_true_eq, Bool.or_eq_true] at ht2 ⊢
          obtain ⟨⟨⟨⟨e1, e2⟩, e3⟩, e4⟩, e5⟩ := ht2
          refine ⟨⟨⟨⟨e1, e2⟩, e3⟩, e4⟩, ?_⟩
          rcases e5 with e5 | e5
          · exact Or.inl e5
          · right; simp [e5]
        · exact h4 x hx t ht1 ht2 ht3

/-- Mark a connection as used. -/
def useConn (conns : List PConn) (id : Nat) : List PConn :=
  conns.map (fun x => if x.id = id then { x with inUse := true } else x)

theorem lockedGet_spec (p : Pool) (level : Nat) (want : Option Nat) (ign : List Nat) (now : Int) (rand : Nat)
    (hnd : (p.servers.map (·.id)).Nodup) (g : Nat → Bool) (hj : Just p.retry now p.conns g p.servers) :
    ∃ g', Just p.retry now p.conns g' p.servers ∧
      ((lockedGet { p with servers := reset g p.servers } level want ign now rand = (none, { p with servers := reset g' p.servers }) ∧
        (p.levels.getD level 0 ≠ 0 → ∀ c ∈ p.conns, ∀ s, findServer p.servers c.srv = some s →
          eligible p.retry now level (want.bind (findServer p.servers)) c s = true →
          want = none ∧ ignored (ign.filterMap (findServer p.servers)) s = true)) ∨
       ∃ c s, Chosen p.retry now level want ign p.conns p.servers c s ∧
        lockedGet { p with servers := reset g p.servers } level want ign now rand =
          (some c, { p with servers := reset g' p.servers, conns := useConn p.conns c.id,
                            levels := p.levels.set level (p.levels.getD level 0 - 1) })) := by
  unfold lockedGet
  dsimp only
  split
  · rename_i h0
    exact ⟨g, hj, Or.inl ⟨rfl, fun h => absurd h0 h⟩⟩
  · obtain ⟨g', h1, h2, h3, h4⟩ := scan_spec p.retry now level want ign p.conns p.servers hnd p.conns g (fun _ h => h) hj
    refine ⟨g', h2, ?_⟩
    rw [h1]
    generalize hr : (scan p.retry now level want ign p.conns (reset g p.servers)).1 = cands at *
    cases hc : cands[rand % cands.length]? with
    | none =>
      left
      refine ⟨rfl, fun _ c hcm s hs he => ?_⟩
      by_cases hx : want = none ∧ ignored (ign.filterMap (findServer p.servers)) s = true
      · exact hx
      · exfalso
        have hm := h4 c hcm s hs he hx
        have : 0 < cands.length := List.length_pos_of_mem hm
        rw [List.getElem?_eq_none_iff] at hc
        have := Nat.mod_lt rand this
        omega
    | some c =>
      right
      obtain ⟨s, hs⟩ := h3 c (List.mem_of_getElem? hc)
      exact ⟨c, s, hs, rfl⟩

/-- Every server of the levels between is optional and blocked. -/
def Skipped (p : Pool) (now : Int) (a b : Nat) : Prop :=
  ∀ t ∈ p.servers, (a : Int) ≤ t.norm → t.norm < b → t.active = true → t.optional = true ∧ isBlocked p.retry now t = true

theorem mustWait_false {p : Pool} {level : Nat} {now : Int} {g : Nat → Bool}
    (h : mustWait { p with servers := reset g p.servers } level now = false) : Skipped p now level (level + 1) := by
  intro t ht h1 h2 h3
  unfold mustWait at h
  dsimp only at h
  rw [List.any_eq_false] at h
  have := h (reset1 g t) (by unfold reset; exact List.mem_map_of_mem ht)
  rw [(reset1_fields g t).2.2.1, (reset1_fields g t).2.1, (reset1_fields g t).2.2.2.2.1, isBlocked_reset] at this
  simp only [show t.norm = (level : Int) by omega, h3, decide_true, Bool.true_and, Bool.not_eq_true,
    Bool.not_eq_false', Bool.and_eq_true] at this
  exact ⟨this.1, this.2.2⟩

theorem getLoop_spec (fuel : Nat) : ∀ (p : Pool) (level : Nat) (want : Option Nat) (ign : List Nat) (now : Int) (rand : Nat)
    (_ : (p.servers.map (·.id)).Nodup) (g : Nat → Bool) (_ : Just p.retry now p.conns g p.servers),
    ∃ g', (getLoop fuel { p with servers := reset g p.servers } level want ign now rand = (none, { p with servers := reset g' p.servers })) ∨
       ∃ c s lv, level ≤ lv ∧ lv < p.levels.length ∧ p.levels.getD lv 0 > 0 ∧ Skipped p now level lv ∧
        Chosen p.retry now lv want ign p.conns p.servers c s ∧
        getLoop fuel { p with servers := reset g p.servers } level want ign now rand =
          (some c, { p with servers := reset g' p.servers, conns := useConn p.conns c.id,
                            levels := p.levels.set lv (p.levels.getD lv 0 - 1) }) := by
  induction fuel with
  | zero => intro p level want ign now rand _ g _; exact ⟨g, Or.inl rfl⟩
  | succ fuel ih =>
    intro p level want ign now rand hnd g hj
    rw [getLoop]
    dsimp only
    split
    · rename_i hlv
      obtain ⟨g1, hj1, h⟩ := lockedGet_spec p level want ign now rand hnd g hj
      rcases h with ⟨h, _⟩ | ⟨c, s, hch, h⟩
      · rw [h]
        dsimp only
        split
        · exact ⟨g1, Or.inl rfl⟩
        · rename_i hw
          obtain ⟨g2, h2⟩ := ih p (level + 1) want ign now rand hnd g1 hj1
          refine ⟨g2, ?_⟩
          rcases h2 with h2 | ⟨c, s, lv, a1, a2, a3, a4, a5, a6⟩
          · exact Or.inl h2
          · refine Or.inr ⟨c, s, lv, by omega, a2, a3, ?_, a5, a6⟩
            intro t ht b1 b2 b3
            by_cases hb : t.norm < ((level + 1 : Nat) : Int)
            · exact mustWait_false (by simpa using hw) t ht b1 hb b3
            · exact a4 t ht (by omega) b2 b3
      · refine ⟨g1, Or.inr ⟨c, s, level, Nat.le_refl _, hlv.1, hlv.2, ?_, hch, ?_⟩⟩
        · intro t _ b1 b2; omega
        · rw [h]
    · exact ⟨g, Or.inl rfl⟩

theorem getConnection_spec (p : Pool) (level : Nat) (want : Option Nat) (ign : List Nat) (now : Int) (rand : Nat)
    (hnd : (p.servers.map (·.id)).Nodup) :
    ∃ g', (getConnection p level want ign now rand = (none, { p with servers := reset g' p.servers })) ∨
       ∃ c s lv, level ≤ lv ∧ lv < p.levels.length ∧ p.levels.getD lv 0 > 0 ∧ Skipped p now level lv ∧
        Chosen p.retry now lv want ign p.conns p.servers c s ∧
        getConnection p level want ign now rand =
          (some c, { p with servers := reset g' p.servers, conns := useConn p.conns c.id,
                            levels := p.levels.set lv (p.levels.getD lv 0 - 1) }) := by
  have h := getLoop_spec (p.levels.length + 1) p level want ign now rand hnd (fun _ => false) (fun _ _ h => by cases h)
  rw [reset_none] at h
  exact h

/-! ### The invariant -/

structure Inv (p : Pool) : Prop where
  sid : (p.servers.map (·.id)).Nodup
  cid : (p.conns.map (·.id)).Nodup
  cnew : ∀ c ∈ p.conns, c.id < p.nextId
  csrv : ∀ c ∈ p.conns, ∃ s ∈ p.servers, s.id = c.srv
  cmax : ∀ s ∈ p.servers, countConns p.conns s.id ≤ s.maxConn
  clev : p.conns ≠ [] → ∀ s ∈ p.servers, s.norm < p.levels.length

theorem inv_start (ss : List Server) (retry : Int) (h : (ss.map (·.id)).Nodup) : Inv (start ss retry) :=
  ⟨h, by simp [start], by simp [start], by simp [start], by simp [start, countConns], by simp [start]⟩

/-- Changing servers without their id, size and level, and connections without their id and server,
keeps the invariant. -/
theorem inv_map {p : Pool} (hi : Inv p) (f : Server → Server) (k : PConn → PConn) (levels : List Int)
    (hf : ∀ s, (f s).id = s.id ∧ (f s).maxConn = s.maxConn ∧ (f s).norm = s.norm)
    (hk : ∀ c, (k c).id = c.id ∧ (k c).srv = c.srv) (hl : levels.length = p.levels.length) :
    Inv { p with servers := p.servers.map f, conns := p.conns.map k, levels := levels } := by
  have hsid : (p.servers.map f).map (·.id) = p.servers.map (·.id) := by
    rw [List.map_map]; exact List.map_congr_left (fun s _ => (hf s).1)
  have hcid : (p.conns.map k).map (·.id) = p.conns.map (·.id) := by
    rw [List.map_map]; exact List.map_congr_left (fun s _ => (hk s).1)
  have hcnt : ∀ x, countConns (p.conns.map k) x = countConns p.conns x := by
    intro x; unfold countConns
    rw [List.filter_map, List.length_map]
    congr 1
    apply List.filter_congr
    intro c _; simp [(hk c).2]
  constructor
  · simp only; rw [hsid]; exact hi.sid
  · simp only; rw [hcid]; exact hi.cid
  · simp only [List.mem_map]; rintro _ ⟨c, hc, rfl⟩; rw [(hk c).1]; exact hi.cnew c hc
  · simp only [List.mem_map]; rintro _ ⟨c, hc, rfl⟩
    obtain ⟨s, hs, e⟩ := hi.csrv c hc
    exact ⟨f s, ⟨s, hs, rfl⟩, by rw [(hf s).1, (hk c).2, e]⟩
  · simp only [List.mem_map]; rintro _ ⟨s, hs, rfl⟩
    rw [hcnt, (hf s).1, (hf s).2.1]; exact hi.cmax s hs
  · simp only [List.mem_map]; intro hne; rintro _ ⟨s, hs, rfl⟩
    rw [hl, (hf s).2.2]
    exact hi.clev (by intro h; apply hne; rw [h]; rfl) s hs

theorem countConns_filter_le (conns : List PConn) (q : PConn → Bool) (x : Nat) :
    countConns (conns.filter q) x ≤ countConns conns x := by
  unfold countConns
  exact (List.filter_sublist.filter _).length_le

theorem inv_filter {p : Pool} (hi : Inv p) (q : PConn → Bool) : Inv { p with conns := p.conns.filter q } := by
  constructor
  · exact hi.sid
  · exact (List.filter_sublist.map _).nodup hi.cid
  · intro c hc; exact hi.cnew c (List.mem_filter.1 hc).1
  · intro c hc; exact hi.csrv c (List.mem_filter.1 hc).1
  · intro s hs; exact Nat.le_trans (countConns_filter_le _ _ _) (hi.cmax s hs)
  · intro hne s hs
    exact hi.clev (by intro h; apply hne; simp only; rw [h]; rfl) s hs

theorem perm_base {tie : Nat → Nat} {p : Pool} : ((normalizeLevels tie p).servers.map base).Perm (p.servers.map base) := by
  rcases normalizeLevels_eq tie p with ⟨h0, h⟩ | ⟨s, ss, h1, _, h⟩
  · rw [h]
  · rw [h]
    simp only
    rw [normWalk_base, ← h1]
    exact (sortServers_perm tie p.servers).map base

theorem base_exists {a b : List Server} (h : (a.map base).Perm (b.map base)) {s : Server} (hs : s ∈ a) :
    ∃ t ∈ b, base t = base s := by
  have : base s ∈ b.map base := h.mem_iff.1 (List.mem_map_of_mem hs)
  obtain ⟨t, h1, h2⟩ := List.mem_map.1 this
  exact ⟨t, h1, h2⟩

theorem base_fields {s t : Server} (h : base t = base s) : t.id = s.id ∧ t.level = s.level ∧ t.active = s.active ∧
    t.maxConn = s.maxConn ∧ t.group = s.group ∧ t.optional = s.optional ∧ t.blockTime = s.blockTime := by
  unfold base at h
  injection h with h1 h2 h3 h4 h5 h6 h7 h8
  exact ⟨h1, h2, h3, h4, h5, h6, h8⟩

theorem perm_ids {a b : List Server} (h : (a.map base).Perm (b.map base)) : (a.map (·.id)).Perm (b.map (·.id)) := by
  have := h.map (·.id)
  rw [List.map_map, List.map_map] at this
  exact this

/-- Everything about `InitConnections`. -/
theorem init_spec (tie : Nat → Nat) {p : Pool} (hi : Inv p) :
    ∃ new levels nid p', initConnections tie p = some p' ∧
      p' = { normalizeLevels tie p with
        servers := (normalizeLevels tie p).servers.map (fun s => { s with blockTime := 0 })
        conns := p.conns ++ new, levels := levels, nextId := nid, generation := p.generation + 1 } ∧ Inv p' ∧
      (∀ c ∈ new, c.inUse = false ∧ c.connected = false ∧ p.nextId ≤ c.id) ∧
      (∀ s ∈ p'.servers, s.norm < levels.length) ∧
      (∀ s ∈ p'.servers, s.norm > -1 → s.active = true → countConns p'.conns s.id = s.maxConn) ∧
      (∀ l, levels.getD l 0 = sumLevel p'.conns l (normalizeLevels tie p).servers) := by
  have hperm := @perm_base tie p
  have hids := perm_ids hperm
  have hsid : ((normalizeLevels tie p).servers.map (·.id)).Nodup := hids.nodup_iff.2 hi.sid
  have hchain : Chain ([] : List Int).length (normalizeLevels tie p).servers := by
    rcases normalizeLevels_eq tie p with ⟨h0, h⟩ | ⟨s, ss, h1, _, h⟩
    · rw [h, h0]; trivial
    · rw [h]; exact normWalk_chain0 s ss
  have hcs : (normalizeLevels tie p).conns = p.conns ∧ (normalizeLevels tie p).nextId = p.nextId ∧
      (normalizeLevels tie p).generation = p.generation := by
    rcases normalizeLevels_eq tie p with ⟨h0, h⟩ | ⟨s, ss, h1, _, h⟩ <;> rw [h] <;> exact ⟨rfl, rfl, rfl⟩
  obtain ⟨new, levels, nid, g1, g2, g3, g4, g5, g6, g7, g8, g9, g10, g11⟩ :=
    initLoop_spec (normalizeLevels tie p).servers p.conns [] p.nextId hchain hsid hi.cnew hi.cid
  have hmax : ∀ s ∈ (normalizeLevels tie p).servers, countConns (p.conns ++ new) s.id ≤ s.maxConn := by
    intro s hs
    rcases g7 s hs with e | e
    · rw [e]
      obtain ⟨t, ht, hb⟩ := base_exists hperm hs
      have := base_fields hb
      rw [← this.1, ← this.2.2.2.1]
      exact hi.cmax t ht
    · exact e
  refine ⟨new, levels, nid, _, ?_, rfl, ?_, ?_, ?_, ?_, ?_⟩
  · unfold initConnections
    simp only [hcs.1, hcs.2.1, g1, Option.bind_eq_bind, Option.bind_some, hcs.2.2]
    rfl
  · constructor
    · simp only [List.map_map]; exact hsid
    · exact g4
    · exact g3
    · simp only
      intro c hc
      rcases List.mem_append.1 hc with hc | hc
      · obtain ⟨s, hs, e⟩ := hi.csrv c hc
        have : s.id ∈ (normalizeLevels tie p).servers.map (·.id) := hids.mem_iff.2 (List.mem_map_of_mem hs)
        obtain ⟨t, ht, e'⟩ := List.mem_map.1 this
        exact ⟨_, List.mem_map_of_mem ht, by simp only; rw [e', e]⟩
      · obtain ⟨_, _, _, s, hs, e, _⟩ := g5 c hc
        exact ⟨_, List.mem_map_of_mem hs, by simp only; exact e⟩
    · simp only [List.mem_map]; rintro _ ⟨s, hs, rfl⟩; exact hmax s hs
    · simp only [List.mem_map]; rintro _ _ ⟨s, hs, rfl⟩; exact g10 s hs
  · intro c hc
    obtain ⟨a, b, d, _⟩ := g5 c hc
    exact ⟨a, b, d⟩
  · simp only [List.mem_map]; rintro _ ⟨s, hs, rfl⟩; exact g10 s hs
  · simp only [List.mem_map]; rintro _ ⟨s, hs, rfl⟩ h1 h2
    exact Nat.le_antisymm (hmax s hs) (g8 s hs h1 h2)
  · intro l; rw [g11 l]; simp

end Verif.Pool
