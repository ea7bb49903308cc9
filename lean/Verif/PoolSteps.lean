import Verif.PoolInv
/-! Effect of each pool operation on the invariant, on the connections in use and on the counters. -/
namespace Verif.Pool

/-- The connection is in use. -/
def InUse (p : Pool) (id : Nat) : Prop := ∃ c ∈ p.conns, c.id = id ∧ c.inUse = true

theorem uniq {l : List PConn} (h : (l.map (·.id)).Nodup) {a b : PConn} (ha : a ∈ l) (hb : b ∈ l) (e : a.id = b.id) : a = b := by
  induction l with
  | nil => simp at ha
  | cons x l ih =>
    rw [List.map_cons, List.nodup_cons] at h
    rcases List.mem_cons.1 ha with rfl | ha' <;> rcases List.mem_cons.1 hb with rfl | hb'
    · rfl
    · exact absurd (by rw [e]; exact List.mem_map_of_mem hb') h.1
    · exact absurd (by rw [← e]; exact List.mem_map_of_mem ha') h.1
    · exact ih h.2 ha' hb'

theorem closeLevels_eq (now : Int) (ls : List Nat) : ∀ p : Pool,
    ∃ k : PConn → PConn, (∀ c, (k c).id = c.id ∧ (k c).srv = c.srv ∧ (k c).inUse = c.inUse) ∧
      ls.foldl (fun p l => closeLevel p l now) p = { p with conns := p.conns.map k } := by
  induction ls with
  | nil => intro p; exact ⟨id, fun c => ⟨rfl, rfl, rfl⟩, by simp⟩
  | cons l ls ih =>
    intro p
    rw [List.foldl_cons]
    obtain ⟨k, h1, h2⟩ := ih (closeLevel p l now)
    rw [h2]
    by_cases hc : (!(p.conns.filter (fun c => connNorm p.servers c == some (l : Int))).any (·.inUse) &&
        decide ((p.conns.filter (fun c => connNorm p.servers c == some (l : Int))).foldl
          (fun m c => if now - c.freeTime > m then now - c.freeTime else m) 0 > 5)) = true
    · refine ⟨k ∘ (fun c => if connNorm p.servers c == some (l : Int) then { c with connected := false } else c), ?_, ?_⟩
      · intro c
        simp only [Function.comp]
        rw [(h1 _).1, (h1 _).2.1, (h1 _).2.2]
        split <;> exact ⟨rfl, rfl, rfl⟩
      · unfold closeLevel
        dsimp only
        rw [if_pos hc]
        simp only [List.map_map]
    · refine ⟨k, h1, ?_⟩
      unfold closeLevel
      dsimp only
      rw [if_neg hc]

theorem closeUnused_eq (p : Pool) (now : Int) :
    ∃ k : PConn → PConn, (∀ c, (k c).id = c.id ∧ (k c).srv = c.srv ∧ (k c).inUse = c.inUse) ∧
      closeUnused p now = { p with conns := (p.conns.filter (fun c => !removable p.servers c)).map k } := by
  unfold closeUnused
  obtain ⟨k, h1, h2⟩ := closeLevels_eq now (List.range (p.maxNorm + 1)) { p with conns := p.conns.filter (fun c => !removable p.servers c) }
  exact ⟨k, h1, h2⟩

/-- `FreeConnection` in closed form. -/
theorem free_spec {p : Pool} (hi : Inv p) {c : PConn} (hc : c ∈ p.conns) (used : Bool) (now : Int) :
    ∃ s, s ∈ p.servers ∧ s.id = c.srv ∧ freeConnection p c.id used now = some { p with
      conns := p.conns.map (fun x => if x.id = c.id then { x with inUse := false, freeTime := if used then now else x.freeTime } else x)
      levels := if s.norm > -1 ∧ s.active = true then p.levels.set s.norm.toNat (p.levels.getD s.norm.toNat 0 + 1) else p.levels } ∧
      s.norm < p.levels.length := by
  obtain ⟨s, hs, e⟩ := hi.csrv c hc
  have hfs : findServer p.servers c.srv = some s := by rw [← e]; exact find_eq_of_nodup hi.sid hs
  have hfc : p.conns.find? (fun x => x.id == c.id) = some c := by
    cases hf : p.conns.find? (fun x => x.id == c.id) with
    | none =>
      rw [List.find?_eq_none] at hf
      exact absurd (by simp) (hf c hc)
    | some d =>
      have h1 := List.mem_of_find?_eq_some hf
      have h2 := List.find?_some hf
      simp only [beq_iff_eq] at h2
      rw [uniq hi.cid h1 hc h2]
  have hlen := hi.clev (by intro h; rw [h] at hc; simp at hc) s hs
  refine ⟨s, hs, e, ?_, hlen⟩
  unfold freeConnection
  simp only [hfc, hfs, Option.bind_eq_bind, Option.bind_some]
  split
  · rename_i h
    rw [addLevel_some _ (by omega)]
    rfl
  · rfl

theorem free_none {p : Pool} {id : Nat} {used : Bool} {now : Int} {p' : Pool} (h : freeConnection p id used now = some p') :
    ∃ c ∈ p.conns, c.id = id := by
  unfold freeConnection at h
  cases hf : p.conns.find? (fun x => x.id == id) with
  | none => rw [hf] at h; cases h
  | some c => exact ⟨c, List.mem_of_find?_eq_some hf, by simpa using List.find?_some hf⟩

theorem map_id_eq {α : Type} (l : List α) : l.map (fun x => x) = l := by simp

theorem inv_get {p p' : Pool} (hi : Inv p) {level : Nat} {want : Option Nat} {ign : List Nat} {now : Int} {rand : Nat} {r : Option PConn}
    (h : getConnection p level want ign now rand = (r, p')) : Inv p' := by
  obtain ⟨g, h1 | ⟨c, s, lv, _, _, _, _, _, h1⟩⟩ := getConnection_spec p level want ign now rand hi.sid
  · rw [h] at h1; injection h1 with _ h1; rw [h1]
    have := inv_map hi (reset1 g) (fun c => c) p.levels (fun s => ⟨(reset1_fields g s).1, (reset1_fields g s).2.2.2.2.2.1, (reset1_fields g s).2.2.1⟩) (fun c => ⟨rfl, rfl⟩) rfl
    simpa [reset] using this
  · rw [h] at h1; injection h1 with _ h1; rw [h1]
    exact inv_map hi (reset1 g) (fun x => if x.id = c.id then { x with inUse := true } else x)
      (p.levels.set lv (p.levels.getD lv 0 - 1)) (fun s => ⟨(reset1_fields g s).1, (reset1_fields g s).2.2.2.2.2.1, (reset1_fields g s).2.2.1⟩)
      (fun x => by split <;> exact ⟨rfl, rfl⟩) (by simp)

theorem inv_apply {p p' : Pool} (hi : Inv p) {op : Op} {es : List Event} (h : apply p op = some (p', es)) : Inv p' := by
  cases op with
  | init tie =>
    obtain ⟨new, levels, nid, q, h1, _, h2, _⟩ := init_spec tie hi
    simp only [apply, h1, Option.map_some, Option.some.injEq, Prod.mk.injEq] at h
    rw [← h.1]; exact h2
  | get l w i n r =>
    simp only [apply] at h
    cases hg : getConnection p l w i n r with
    | mk a q =>
      rw [hg] at h
      have := inv_get hi hg
      cases a <;> (simp only [Option.some.injEq, Prod.mk.injEq] at h; rw [← h.1]; exact this)
  | free id u n =>
    simp only [apply] at h
    cases hf : freeConnection p id u n with
    | none => rw [hf] at h; cases h
    | some q =>
      rw [hf] at h
      simp only [Option.map_some, Option.some.injEq, Prod.mk.injEq] at h
      obtain ⟨c, hc, rfl⟩ := free_none hf
      obtain ⟨s, _, _, h1, _⟩ := free_spec hi hc u n
      rw [hf] at h1; injection h1 with h1
      rw [← h.1, h1]
      have := inv_map hi (fun s => s) (fun x => if x.id = c.id then { x with inUse := false, freeTime := if u then n else x.freeTime } else x)
        (if s.norm > -1 ∧ s.active = true then p.levels.set s.norm.toNat (p.levels.getD s.norm.toNat 0 + 1) else p.levels)
        (fun s => ⟨rfl, rfl, rfl⟩) (fun x => by split <;> exact ⟨rfl, rfl⟩) (by split <;> simp)
      simpa using this
  | block s n =>
    simp only [apply, Option.some.injEq, Prod.mk.injEq] at h
    rw [← h.1]
    have := inv_map hi (fun x => if x.id = s then { x with blockTime := n } else x) (fun c => c) p.levels
      (fun s => by split <;> exact ⟨rfl, rfl, rfl⟩) (fun c => ⟨rfl, rfl⟩) rfl
    simpa [blockServer, updServer] using this
  | setActive s b =>
    simp only [apply, Option.some.injEq, Prod.mk.injEq] at h
    rw [← h.1]
    have := inv_map hi (fun x => if x.id = s then { x with active := b } else x) (fun c => c) p.levels
      (fun s => by split <;> exact ⟨rfl, rfl, rfl⟩) (fun c => ⟨rfl, rfl⟩) rfl
    simpa [setActive, updServer] using this
  | closeUnused n =>
    simp only [apply, Option.some.injEq, Prod.mk.injEq] at h
    rw [← h.1]
    obtain ⟨k, h1, h2⟩ := closeUnused_eq p n
    rw [h2]
    have := inv_map (inv_filter hi (fun c => !removable p.servers c)) (fun s => s) k p.levels
      (fun s => ⟨rfl, rfl, rfl⟩) (fun c => ⟨(h1 c).1, (h1 c).2.1⟩) rfl
    simpa using this
  | setConnected id b =>
    simp only [apply, Option.some.injEq, Prod.mk.injEq] at h
    rw [← h.1]
    have := inv_map hi (fun s => s) (fun c => if c.id = id then { c with connected := b } else c) p.levels
      (fun s => ⟨rfl, rfl, rfl⟩) (fun c => by split <;> exact ⟨rfl, rfl⟩) rfl
    simpa [setConnected] using this

/-- Only a release ends the use of a connection, and a connection in use is not granted. -/
theorem apply_held {p p' : Pool} (hi : Inv p) {op : Op} {es : List Event} (h : apply p op = some (p', es)) {id : Nat}
    (hu : InUse p id) (hr : Event.released id ∉ es) : InUse p' id ∧ Event.granted id ∉ es := by
  obtain ⟨c, hc, hid, hin⟩ := hu
  cases op with
  | init tie =>
    obtain ⟨new, levels, nid, q, h1, h2, _⟩ := init_spec tie hi
    simp only [apply, h1, Option.map_some, Option.some.injEq, Prod.mk.injEq] at h
    rw [← h.1, ← h.2, h2]
    exact ⟨⟨c, by simp [hc], hid, hin⟩, by simp⟩
  | get l w i n r =>
    simp only [apply] at h
    obtain ⟨g, h1 | ⟨d, s, lv, _, _, _, _, hch, h1⟩⟩ := getConnection_spec p l w i n r hi.sid
    · rw [h1] at h
      simp only [Option.some.injEq, Prod.mk.injEq] at h
      rw [← h.1, ← h.2]; exact ⟨⟨c, hc, hid, hin⟩, by simp⟩
    · rw [h1] at h
      simp only [Option.some.injEq, Prod.mk.injEq] at h
      rw [← h.1, ← h.2]
      have hne : d.id ≠ id := by
        intro e
        have := uniq hi.cid hch.mem hc (by rw [e, hid])
        have hidle := hch.idle
        rw [this, hin] at hidle
        cases hidle
      refine ⟨⟨c, ?_, hid, hin⟩, by simpa using fun e => hne e.symm⟩
      simp only [useConn, List.mem_map]
      exact ⟨c, hc, by rw [if_neg (by rw [hid]; exact fun e => hne e.symm)]⟩
  | free id' u n =>
    simp only [apply] at h
    cases hf : freeConnection p id' u n with
    | none => rw [hf] at h; cases h
    | some q =>
      rw [hf] at h
      simp only [Option.map_some, Option.some.injEq, Prod.mk.injEq] at h
      obtain ⟨d, hd, rfl⟩ := free_none hf
      obtain ⟨s, _, _, h1, _⟩ := free_spec hi hd u n
      rw [hf] at h1; injection h1 with h1
      rw [← h.2] at hr ⊢
      rw [← h.1, h1]
      have hne : id ≠ d.id := by intro e; exact hr (by rw [e]; simp)
      refine ⟨⟨c, ?_, hid, hin⟩, by simp⟩
      simp only [List.mem_map]
      exact ⟨c, hc, by rw [if_neg (by rw [hid]; exact hne)]⟩
  | block s n =>
    simp only [apply, Option.some.injEq, Prod.mk.injEq] at h
    rw [← h.1, ← h.2]; exact ⟨⟨c, hc, hid, hin⟩, by simp⟩
  | setActive s b =>
    simp only [apply, Option.some.injEq, Prod.mk.injEq] at h
    rw [← h.1, ← h.2]; exact ⟨⟨c, hc, hid, hin⟩, by simp⟩
  | closeUnused n =>
    simp only [apply, Option.some.injEq, Prod.mk.injEq] at h
    rw [← h.1, ← h.2]
    obtain ⟨k, h1, h2⟩ := closeUnused_eq p n
    rw [h2]
    refine ⟨⟨k c, ?_, by rw [(h1 c).1, hid], by rw [(h1 c).2.2, hin]⟩, by simp⟩
    simp only [List.mem_map, List.mem_filter]
    exact ⟨c, ⟨hc, by simp [removable, hin]⟩, rfl⟩
  | setConnected id' b =>
    simp only [apply, Option.some.injEq, Prod.mk.injEq] at h
    rw [← h.1, ← h.2]
    refine ⟨⟨if c.id = id' then { c with connected := b } else c, ?_, ?_, ?_⟩, by simp⟩
    · simp only [setConnected, List.mem_map]; exact ⟨c, hc, rfl⟩
    · split <;> exact hid
    · split <;> exact hin

/-- What a granting operation does. -/
theorem apply_events {p p' : Pool} (hi : Inv p) {op : Op} {es : List Event} (h : apply p op = some (p', es)) :
    es = [] ∨ (∃ id, es = [.granted id] ∧ InUse p' id ∧ ¬ InUse p id) ∨ (∃ id u n, es = [.released id] ∧ op = .free id u n) := by
  cases op with
  | get l w i n r =>
    simp only [apply] at h
    obtain ⟨g, h1 | ⟨d, s, lv, _, _, _, _, hch, h1⟩⟩ := getConnection_spec p l w i n r hi.sid
    · rw [h1] at h
      simp only [Option.some.injEq, Prod.mk.injEq] at h
      exact Or.inl h.2.symm
    · rw [h1] at h
      simp only [Option.some.injEq, Prod.mk.injEq] at h
      refine Or.inr (Or.inl ⟨d.id, h.2.symm, ?_, ?_⟩)
      · rw [← h.1]
        refine ⟨{ d with inUse := true }, ?_, rfl, rfl⟩
        simp only [useConn, List.mem_map]
        exact ⟨d, hch.mem, by simp⟩
      · rintro ⟨c, hc, e, hin⟩
        rw [uniq hi.cid hc hch.mem e, hch.idle] at hin; cases hin
  | free id u n =>
    simp only [apply] at h
    cases hf : freeConnection p id u n with
    | none => rw [hf] at h; cases h
    | some q =>
      rw [hf] at h
      simp only [Option.map_some, Option.some.injEq, Prod.mk.injEq] at h
      exact Or.inr (Or.inr ⟨id, u, n, h.2.symm, rfl⟩)
  | init tie =>
    simp only [apply] at h
    cases hf : initConnections tie p with
    | none => rw [hf] at h; cases h
    | some q =>
      rw [hf] at h
      simp only [Option.map_some, Option.some.injEq, Prod.mk.injEq] at h
      exact Or.inl h.2.symm
  | block s n => simp only [apply, Option.some.injEq, Prod.mk.injEq] at h; exact Or.inl h.2.symm
  | setActive s b => simp only [apply, Option.some.injEq, Prod.mk.injEq] at h; exact Or.inl h.2.symm
  | closeUnused n => simp only [apply, Option.some.injEq, Prod.mk.injEq] at h; exact Or.inl h.2.symm
  | setConnected id' b => simp only [apply, Option.some.injEq, Prod.mk.injEq] at h; exact Or.inl h.2.symm

theorem apply_some {p : Pool} (hi : Inv p) (op : Op) (h : ∀ id u n, op = .free id u n → InUse p id) :
    ∃ r, apply p op = some r := by
  cases op with
  | init tie =>
    obtain ⟨new, levels, nid, q, h1, _⟩ := init_spec tie hi
    exact ⟨_, by simp only [apply, h1]; rfl⟩
  | get l w i n r =>
    simp only [apply]
    cases hg : getConnection p l w i n r with
    | mk a q => cases a <;> exact ⟨_, rfl⟩
  | free id u n =>
    obtain ⟨c, hc, rfl, _⟩ := h id u n rfl
    obtain ⟨s, _, _, h1, _⟩ := free_spec hi hc u n
    exact ⟨_, by simp only [apply, h1]; rfl⟩
  | block s n => exact ⟨_, rfl⟩
  | setActive s b => exact ⟨_, rfl⟩
  | closeUnused n => exact ⟨_, rfl⟩
  | setConnected id' b => exact ⟨_, rfl⟩

theorem run_inv (ops : List Op) : ∀ {p p' : Pool} {es : List Event}, Inv p → run p ops = some (p', es) → Inv p' := by
  induction ops with
  | nil => intro p p' es hi h; simp only [run, Option.some.injEq, Prod.mk.injEq] at h; rw [← h.1]; exact hi
  | cons op ops ih =>
    intro p p' es hi h
    rw [run] at h
    cases ha : apply p op with
    | none => rw [ha] at h; cases h
    | some r =>
      obtain ⟨q, e⟩ := r
      simp only [ha, Option.bind_eq_bind, Option.bind_some] at h
      cases hr : run q ops with
      | none => rw [hr] at h; cases h
      | some r =>
        obtain ⟨q', es'⟩ := r
        rw [hr] at h
        simp only [Option.bind_some, Option.pure_def, Option.some.injEq, Prod.mk.injEq] at h
        rw [← h.1]
        exact ih (inv_apply hi ha) hr

theorem run_cons {p p' : Pool} {op : Op} {ops : List Op} {es : List Event} (h : run p (op :: ops) = some (p', es)) :
    ∃ q e es', apply p op = some (q, e) ∧ run q ops = some (p', es') ∧ es = e ++ es' := by
  rw [run] at h
  cases ha : apply p op with
  | none => rw [ha] at h; cases h
  | some r =>
    obtain ⟨q, e⟩ := r
    simp only [ha, Option.bind_eq_bind, Option.bind_some] at h
    cases hr : run q ops with
    | none => rw [hr] at h; cases h
    | some r =>
      obtain ⟨q', es'⟩ := r
      rw [hr] at h
      simp only [Option.bind_some, Option.pure_def, Option.some.injEq, Prod.mk.injEq] at h
      exact ⟨q, e, es', rfl, by rw [hr, ← h.1], h.2.symm⟩

theorem run_append {p p' : Pool} {ops ops' : List Op} {es : List Event} : ∀ (_ : run p (ops ++ ops') = some (p', es)),
    ∃ q e es', run p ops = some (q, e) ∧ run q ops' = some (p', es') ∧ es = e ++ es' := by
  induction ops generalizing p es with
  | nil => intro h; exact ⟨p, [], es, rfl, h, rfl⟩
  | cons op ops ih =>
    intro h
    obtain ⟨q, e, es', h1, h2, h3⟩ := run_cons (by exact h)
    obtain ⟨q2, e2, es2, h4, h5, h6⟩ := ih h2
    refine ⟨q2, e ++ e2, es2, ?_, h5, by rw [h3, h6, List.append_assoc]⟩
    rw [run, h1]
    simp only [Option.bind_eq_bind, Option.bind_some, h4]
    rfl

/-- A connection in use is granted again only after a release. -/
theorem run_held (ops : List Op) : ∀ {p p' : Pool} {es : List Event} {id : Nat}, Inv p → run p ops = some (p', es) → InUse p id →
    ∀ mid post, es = mid ++ .granted id :: post → Event.released id ∈ mid := by
  induction ops with
  | nil =>
    intro p p' es id hi h hu mid post he
    simp only [run, Option.some.injEq, Prod.mk.injEq] at h
    rw [← h.2] at he
    exact absurd he (by simp)
  | cons op ops ih =>
    intro p p' es id hi h hu mid post he
    obtain ⟨q, e, es', h1, h2, h3⟩ := run_cons h
    by_cases hr : Event.released id ∈ e
    · rcases apply_events hi h1 with e0 | ⟨id', e0, _⟩ | ⟨id', u, n, e0, _⟩
      · rw [e0] at hr; simp at hr
      · rw [e0] at hr; simp at hr
      · rw [e0] at hr h3
        simp only [List.mem_singleton, Event.released.injEq] at hr
        subst hr
        rw [he] at h3
        cases mid with
        | nil => simp at h3
        | cons m mid => simp only [List.cons_append, List.singleton_append, List.cons.injEq] at h3; rw [h3.1]; simp
    · obtain ⟨h4, h5⟩ := apply_held hi h1 hu hr
      rcases apply_events hi h1 with e0 | ⟨id', e0, _⟩ | ⟨id', u, n, e0, _⟩
      · rw [e0] at h3; exact ih (inv_apply hi h1) h2 h4 mid post (by rw [← he, h3]; rfl)
      all_goals
        rw [he, e0] at h3
        cases mid with
        | nil =>
          simp only [List.nil_append, List.singleton_append, List.cons.injEq] at h3
          exact absurd (by rw [e0, ← h3.1]; simp) h5
        | cons m mid =>
          simp only [List.cons_append, List.singleton_append, List.cons.injEq, List.nil_append] at h3
          exact List.mem_cons_of_mem _ (ih (inv_apply hi h1) h2 h4 mid post h3.2.symm)

/-! ### Counters -/

/-- The connection belongs to an active server of the level. -/
def onLevel (ss : List Server) (l : Nat) (c : PConn) : Bool :=
  ss.any (fun s => s.id == c.srv && s.active && decide (s.norm = (l : Int)))

theorem onLevel_iff {ss : List Server} (hnd : (ss.map (·.id)).Nodup) {s : Server} (hs : s ∈ ss) {c : PConn} (e : s.id = c.srv) (l : Nat) :
    onLevel ss l c = (s.active && decide (s.norm = (l : Int))) := by
  unfold onLevel
  cases h : (s.active && decide (s.norm = (l : Int))) with
  | true =>
    rw [List.any_eq_true]
    exact ⟨s, hs, by simp only [e, beq_self_eq_true, Bool.true_and]; exact h⟩
  | false =>
    rw [List.any_eq_false]
    intro t ht hx
    simp only [Bool.and_eq_true, beq_iff_eq, decide_eq_true_eq] at hx
    have h1 := find_eq_of_nodup hnd ht
    have h2 := find_eq_of_nodup hnd hs
    rw [hx.1.1, ← e, h2] at h1
    injection h1 with h1
    subst h1
    simp [hx.1.2, hx.2] at h

theorem onLevel_map (f : Server → Server) (hf : ∀ s, (f s).id = s.id ∧ (f s).active = s.active ∧ (f s).norm = s.norm)
    (ss : List Server) (l : Nat) (c : PConn) : onLevel (ss.map f) l c = onLevel ss l c := by
  unfold onLevel
  rw [List.any_map]
  congr 1
  funext s
  simp only [Function.comp, (hf s).1, (hf s).2.1, (hf s).2.2]

/-- Free connections of a level. -/
def freeOn (p : Pool) (l : Nat) : Nat := p.conns.countP (fun c => !c.inUse && onLevel p.servers l c)
/-- Connections in use of a level. -/
def busyOn (p : Pool) (l : Nat) : Nat := p.conns.countP (fun c => c.inUse && onLevel p.servers l c)

theorem sumLevel_eq (conns : List PConn) (l : Nat) (ss : List Server) (hnd : (ss.map (·.id)).Nodup) :
    sumLevel conns l ss = conns.countP (onLevel ss l) := by
  induction ss with
  | nil => rw [sumLevel, List.countP_eq_zero.2]; intro a _; simp [onLevel]
  | cons s ss ih =>
    rw [List.map_cons, List.nodup_cons] at hnd
    rw [sumLevel, ih hnd.2]
    clear ih
    unfold countConns
    induction conns with
    | nil => simp
    | cons c cs ihc =>
      rw [List.countP_cons, List.countP_cons]
      have hx : onLevel (s :: ss) l c = ((s.id == c.srv && s.active && decide (s.norm = (l : Int))) || onLevel ss l c) := by
        simp [onLevel]
      have hdis : s.id = c.srv → onLevel ss l c = false := by
        intro e
        unfold onLevel
        rw [List.any_eq_false]
        intro t ht hy
        simp only [Bool.and_eq_true, beq_iff_eq] at hy
        exact hnd.1 (by rw [e, ← hy.1.1]; exact List.mem_map_of_mem ht)
      rw [← ihc, hx]
      by_cases hc : s.norm = (l : Int) ∧ s.active = true
      · by_cases e : s.id = c.srv
        · simp [hc, e, hdis e, List.filter_cons]; omega
        · have e' : c.srv ≠ s.id := fun h => e h.symm
          simp [hc, e, e', List.filter_cons]; omega
      · have : (s.active && decide (s.norm = (l : Int))) = false := by
          cases hb : s.active <;> simp [hb] at hc ⊢; exact hc
        rw [Bool.and_assoc, this]
        simp [hc]

theorem countP_upd {conns : List PConn} (hnd : (conns.map (·.id)).Nodup) {c : PConn} (hc : c ∈ conns) (f : PConn → PConn) (q : PConn → Bool) :
    (conns.map (fun x => if x.id = c.id then f x else x)).countP q + (if q c then 1 else 0) =
      conns.countP q + (if q (f c) then 1 else 0) := by
  induction conns with
  | nil => simp at hc
  | cons x xs ih =>
    rw [List.map_cons, List.nodup_cons] at hnd
    rw [List.map_cons, List.countP_cons, List.countP_cons]
    rcases List.mem_cons.1 hc with rfl | hc
    · have : xs.map (fun x => if x.id = c.id then f x else x) = xs := by
        rw [List.map_congr_left (g := fun x => x)]
        · simp
        · intro y hy
          rw [if_neg (fun e => hnd.1 (by rw [← e]; exact List.mem_map_of_mem hy))]
      rw [this]; simp only [if_true]; omega
    · have hx : x.id ≠ c.id := fun e => hnd.1 (by rw [e]; exact List.mem_map_of_mem hc)
      rw [if_neg hx]
      have := ih hnd.2 hc
      omega

/-- Every operation other than reconfiguration changes counter and free connections alike. -/
theorem apply_drift {p p' : Pool} (hi : Inv p) {op : Op} {es : List Event} (h : apply p op = some (p', es))
    (h1 : ∀ t, op ≠ .init t) (h2 : ∀ s b, op ≠ .setActive s b) (h3 : ∀ id u n, op = .free id u n → InUse p id) (l : Nat) :
    p'.levels.getD l 0 - freeOn p' l = p.levels.getD l 0 - freeOn p l := by
  cases op with
  | init t => exact absurd rfl (h1 t)
  | setActive s b => exact absurd rfl (h2 s b)
  | get lq w i n r =>
    simp only [apply] at h
    obtain ⟨g, hg | ⟨d, s, lv, _, hlen, _, _, hch, hg⟩⟩ := getConnection_spec p lq w i n r hi.sid
    · rw [hg] at h
      simp only [Option.some.injEq, Prod.mk.injEq] at h
      rw [← h.1]
      unfold freeOn reset
      simp only [onLevel_map (reset1 g) (fun s => ⟨(reset1_fields g s).1, (reset1_fields g s).2.1, (reset1_fields g s).2.2.1⟩)]
    · rw [hg] at h
      simp only [Option.some.injEq, Prod.mk.injEq] at h
      rw [← h.1]
      unfold freeOn reset useConn
      simp only [onLevel_map (reset1 g) (fun s => ⟨(reset1_fields g s).1, (reset1_fields g s).2.1, (reset1_fields g s).2.2.1⟩)]
      rw [getD_set _ _ _ _ hlen]
      have hc := countP_upd hi.cid hch.mem (fun x => { x with inUse := true }) (fun c => !c.inUse && onLevel p.servers l c)
      obtain ⟨hsm, hse⟩ := findServer_mem hch.smem
      have ho := onLevel_iff hi.sid hsm hse l
      have ho' : onLevel p.servers l d = decide (lv = l) := by
        rw [ho, hch.active, hch.norm]; simp only [Bool.true_and]; congr 1; exact propext (by omega)
      simp only [hch.idle, Bool.not_false, Bool.true_and, Bool.not_true, Bool.false_and, Bool.false_eq_true, if_false, ho'] at hc
      by_cases e : lv = l
      · subst e; simp at hc ⊢; omega
      · simp [e] at hc ⊢; omega
  | free id u n =>
    obtain ⟨c, hc, rfl, hin⟩ := h3 id u n rfl
    obtain ⟨s, hs, he, hf, hlen⟩ := free_spec hi hc u n
    simp only [apply, hf, Option.map_some, Option.some.injEq, Prod.mk.injEq] at h
    rw [← h.1]
    unfold freeOn
    have hcnt := countP_upd hi.cid hc (fun x => { x with inUse := false, freeTime := if u then n else x.freeTime }) (fun c => !c.inUse && onLevel p.servers l c)
    have ho := onLevel_iff hi.sid hs he l
    have ho' : onLevel p.servers l { c with inUse := false, freeTime := if u then n else c.freeTime } = onLevel p.servers l c := rfl
    simp only [hin, Bool.not_true, Bool.false_and, Bool.false_eq_true, if_false, Bool.not_false, Bool.true_and] at hcnt
    rw [ho', ho] at hcnt
    simp only
    by_cases hx : s.norm > -1 ∧ s.active = true
    · rw [if_pos hx, getD_set _ _ _ _ (by omega)]
      rw [hx.2] at hcnt
      by_cases e : s.norm = (l : Int)
      · rw [if_pos (by omega)]
        simp only [e, decide_true, Bool.true_and, if_true] at hcnt
        rw [Nat.add_zero] at hcnt; rw [hcnt, e]; push_cast; rw [Int.toNat_natCast]; omega
      · rw [if_neg (by omega)]
        simp only [e, decide_false, Bool.and_false, Bool.false_eq_true, if_false] at hcnt
        rw [Nat.add_zero, Nat.add_zero] at hcnt; rw [hcnt]
    · rw [if_neg hx]
      have hno : (s.active && decide (s.norm = (l : Int))) = false := by
        cases hb : s.active with
        | false => rfl
        | true =>
          simp only [Bool.true_and, decide_eq_false_iff_not]
          intro e; exact hx ⟨by omega, hb⟩
      rw [hno] at hcnt
      simp only [Bool.false_eq_true, if_false] at hcnt
      rw [Nat.add_zero, Nat.add_zero] at hcnt; rw [hcnt]
  | block s n =>
    simp only [apply, Option.some.injEq, Prod.mk.injEq] at h
    rw [← h.1]
    unfold freeOn blockServer updServer
    simp only
    simp only [onLevel_map (fun x => if x.id = s then { x with blockTime := n } else x) (fun s => by split <;> exact ⟨rfl, rfl, rfl⟩)]
  | closeUnused n =>
    simp only [apply, Option.some.injEq, Prod.mk.injEq] at h
    rw [← h.1]
    obtain ⟨k, hk, he⟩ := closeUnused_eq p n
    rw [he]
    unfold freeOn
    simp only
    rw [List.countP_map, List.countP_filter]
    congr 2
    apply List.countP_congr
    intro c hc
    have hol : onLevel p.servers l (k c) = onLevel p.servers l c := by unfold onLevel; rw [(hk c).2.1]
    simp only [Function.comp, (hk c).2.2, hol]
    obtain ⟨s, hs, e⟩ := hi.csrv c hc
    have ho := onLevel_iff hi.sid hs e l
    have hfs : findServer p.servers c.srv = some s := by rw [← e]; exact find_eq_of_nodup hi.sid hs
    unfold removable
    rw [hfs, ho]
    simp only [Bool.and_eq_true, Bool.not_eq_true', decide_eq_true_eq, Bool.and_eq_false_iff, Bool.or_eq_false_iff, decide_eq_false_iff_not]
    constructor
    · intro hh; exact hh.1
    · intro hh; exact ⟨hh, Or.inr ⟨by omega, by simp [hh.2.1]⟩⟩
  | setConnected id b =>
    simp only [apply, Option.some.injEq, Prod.mk.injEq] at h
    rw [← h.1]
    unfold freeOn setConnected
    simp only
    rw [List.countP_map]
    congr 2
    apply List.countP_congr
    intro c _
    simp only [Function.comp]
    have : ∀ d : PConn, d.srv = c.srv → onLevel p.servers l d = onLevel p.servers l c := by
      intro d hd; unfold onLevel; rw [hd]
    split
    · exact Iff.rfl
    · exact Iff.rfl

theorem countP_split (conns : List PConn) (q : PConn → Bool) :
    conns.countP q = conns.countP (fun c => !c.inUse && q c) + conns.countP (fun c => c.inUse && q c) := by
  induction conns with
  | nil => rfl
  | cons c cs ih =>
    rw [List.countP_cons, List.countP_cons, List.countP_cons, ih]
    cases c.inUse <;> cases q c <;> simp <;> omega

theorem init_drift (tie : Nat → Nat) {p p' : Pool} (hi : Inv p) (h : initConnections tie p = some p') (l : Nat) :
    p'.levels.getD l 0 = freeOn p' l + busyOn p' l := by
  obtain ⟨new, levels, nid, q, h1, h2, h3, _, _, _, h7⟩ := init_spec tie hi
  rw [h] at h1; injection h1 with h1; subst h1
  have hl : p'.levels = levels := by rw [h2]
  have hs : p'.servers = (normalizeLevels tie p).servers.map (fun s => { s with blockTime := 0 }) := by rw [h2]
  rw [hl, h7]
  unfold freeOn busyOn
  have hq : ∀ c, onLevel p'.servers l c = onLevel (normalizeLevels tie p).servers l c := by
    intro c; rw [hs]; exact onLevel_map (fun s => { s with blockTime := 0 }) (fun s => ⟨rfl, rfl, rfl⟩) _ _ _
  simp only [hq]
  rw [sumLevel_eq, countP_split]
  · push_cast; rfl
  · exact (perm_ids (@perm_base tie p)).nodup_iff.2 hi.sid

end Verif.Pool
