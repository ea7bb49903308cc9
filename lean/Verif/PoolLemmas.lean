import Verif.Pool
/-! Lemmas about the connection pool. -/
namespace Verif.Pool

/-! ### Normalised levels -/

theorem insertServer_perm (tie : Nat → Nat) (x : Server) (l : List Server) : (insertServer tie x l).Perm (x :: l) := by
  induction l with
  | nil => exact List.Perm.refl _
  | cons y ys ih =>
    rw [insertServer]
    split
    · exact List.Perm.refl _
    · exact (ih.cons y).trans (List.Perm.swap x y ys)

theorem sortServers_perm (tie : Nat → Nat) (ss : List Server) : (sortServers tie ss).Perm ss := by
  induction ss with
  | nil => exact List.Perm.refl _
  | cons x xs ih => exact (insertServer_perm tie x _).trans (ih.cons x)

theorem insertServer_sorted (tie : Nat → Nat) (x : Server) (l : List Server) (h : l.Pairwise (fun a b => a.level ≤ b.level)) :
    (insertServer tie x l).Pairwise (fun a b => a.level ≤ b.level) := by
  induction l with
  | nil => exact List.pairwise_singleton _ _
  | cons y ys ih =>
    obtain ⟨h1, h2⟩ := List.pairwise_cons.1 h
    rw [insertServer]
    split
    · rename_i hb
      simp only [before, Bool.or_eq_true, Bool.and_eq_true, decide_eq_true_eq] at hb
      refine List.pairwise_cons.2 ⟨?_, h⟩
      intro z hz
      rcases List.mem_cons.1 hz with rfl | hz
      · omega
      · have := h1 z hz; omega
    · rename_i hb
      simp only [before, Bool.or_eq_true, Bool.and_eq_true, decide_eq_true_eq] at hb
      refine List.pairwise_cons.2 ⟨?_, ih h2⟩
      intro z hz
      rcases List.mem_cons.1 ((insertServer_perm tie x ys).mem_iff.1 hz) with rfl | hz
      · omega
      · exact h1 z hz

theorem sortServers_sorted (tie : Nat → Nat) (ss : List Server) :
    (sortServers tie ss).Pairwise (fun a b => a.level ≤ b.level) := by
  induction ss with
  | nil => exact List.Pairwise.nil
  | cons x xs ih => exact insertServer_sorted tie x _ ih

/-- The server without its computed level. -/
def base (s : Server) : Server := { s with norm := 0 }

theorem normWalk_base (m : Int) (ss : List Server) : ∀ (last : Int) (mx : Nat),
    (normWalk m last mx ss).1.map base = ss.map base := by
  induction ss with
  | nil => intro _ _; rfl
  | cons s ss ih =>
    intro last mx
    rw [normWalk]
    split
    · simp only [List.map_cons, ih]; rfl
    · simp only [List.map_cons, ih]; rfl

theorem normWalk_max (m : Int) (ss : List Server) : ∀ (last : Int) (mx : Nat), mx ≤ (normWalk m last mx ss).2 := by
  induction ss with
  | nil => intro _ _; exact Nat.le_refl _
  | cons s ss ih =>
    intro last mx
    rw [normWalk]
    split
    · refine Nat.le_trans ?_ (ih _ _); split <;> omega
    · exact ih _ _

theorem usable_norm (m : Int) (s : Server) (n : Int) : usable m { s with norm := n } = usable m s := rfl

/-- Facts about one server of the result. -/
theorem normWalk_one (m : Int) (ss : List Server) : ∀ (last : Int) (mx : Nat),
    ss.Pairwise (fun a b => a.level ≤ b.level) → (∀ s ∈ ss, last ≤ s.level) →
    ∀ s ∈ (normWalk m last mx ss).1,
      (usable m s = false → s.norm = -1) ∧
      (usable m s = true → (mx : Int) ≤ s.norm ∧ s.norm ≤ (normWalk m last mx ss).2 ∧
        (s.norm = mx ↔ s.level = last)) ∧ last ≤ s.level := by
  induction ss with
  | nil => intro _ _ _ _ s hs; simp [normWalk] at hs
  | cons t ss ih =>
    intro last mx hp hl s hs
    obtain ⟨hp1, hp2⟩ := List.pairwise_cons.1 hp
    have hlt : last ≤ t.level := hl t (by simp)
    rw [normWalk] at hs ⊢
    split at hs
    · rename_i hu
      simp only [hu, if_true] at hs ⊢
      have hmax := normWalk_max m ss t.level (if t.level ≠ last then mx + 1 else mx)
      rcases List.mem_cons.1 hs with rfl | hs
      · refine ⟨fun h => ?_, fun _ => ⟨?_, ?_, ?_⟩, hlt⟩
        · rw [usable_norm, hu] at h; cases h
        · simp only; split <;> omega
        · simp only; omega
        · simp only; split
          · rename_i h; constructor
            · intro h'; omega
            · intro h'; exact absurd h' h
          · rename_i h; simp at h; exact ⟨fun _ => h, fun _ => rfl⟩
      · obtain ⟨h1, h2, h3⟩ := ih t.level _ hp2 hp1 s hs
        refine ⟨h1, fun hus => ?_, by omega⟩
        obtain ⟨g1, g2, g3⟩ := h2 hus
        refine ⟨?_, g2, ?_⟩
        · revert g1; split <;> intro g1 <;> omega
        · by_cases hne : t.level = last
          · simp only [hne, ne_eq, not_true_eq_false, if_false] at g3
            exact g3
          · simp only [ne_eq, hne, not_false_eq_true, if_true] at g1
            constructor
            · intro h; omega
            · intro h; omega
    · rename_i hu
      simp only [hu, if_false, Bool.false_eq_true] at hs ⊢
      rcases List.mem_cons.1 hs with rfl | hs
      · refine ⟨fun _ => rfl, fun h => ?_, hlt⟩
        rw [usable_norm] at h; exact absurd h hu
      · exact ih last mx hp2 (fun x hx => hl x (by simp [hx])) s hs

/-- Two usable servers are ordered by their levels. -/
theorem normWalk_pair (m : Int) (ss : List Server) : ∀ (last : Int) (mx : Nat),
    ss.Pairwise (fun a b => a.level ≤ b.level) → (∀ s ∈ ss, last ≤ s.level) →
    (normWalk m last mx ss).1.Pairwise (fun a b => usable m a = true → usable m b = true →
      (a.norm ≤ b.norm ∧ (a.norm = b.norm ↔ a.level = b.level))) := by
  induction ss with
  | nil => intro _ _ _ _; simp [normWalk]
  | cons t ss ih =>
    intro last mx hp hl
    obtain ⟨hp1, hp2⟩ := List.pairwise_cons.1 hp
    rw [normWalk]
    split
    · rename_i hu
      refine List.pairwise_cons.2 ⟨?_, ih _ _ hp2 hp1⟩
      intro b hb _ hub
      obtain ⟨_, h2, h3⟩ := normWalk_one m ss t.level _ hp2 hp1 b hb
      obtain ⟨g1, g2, g3⟩ := h2 hub
      refine ⟨g1, ?_⟩
      constructor
      · intro h; exact (g3.1 h.symm).symm
      · intro h; exact (g3.2 h.symm).symm
    · rename_i hu
      refine List.pairwise_cons.2 ⟨?_, ih _ _ hp2 (fun x hx => hl x (by simp [hx]))⟩
      intro b _ hua _
      rw [usable_norm] at hua; exact absurd hua hu

/-- Every level up to the maximum is used. -/
theorem normWalk_onto (m : Int) (ss : List Server) : ∀ (last : Int) (mx k : Nat), mx < k →
    k ≤ (normWalk m last mx ss).2 → ∃ s ∈ (normWalk m last mx ss).1, usable m s = true ∧ s.norm = k := by
  induction ss with
  | nil => intro _ mx k h1 h2; simp [normWalk] at h2; omega
  | cons t ss ih =>
    intro last mx k h1 h2
    rw [normWalk] at h2 ⊢
    split at h2
    · rename_i hu
      simp only [hu, if_true] at h2 ⊢
      by_cases hk : (if t.level ≠ last then mx + 1 else mx) < k
      · obtain ⟨s, g1, g2⟩ := ih _ _ k hk h2
        exact ⟨s, List.mem_cons_of_mem _ g1, g2⟩
      · refine ⟨_, List.mem_cons_self, hu, ?_⟩
        simp only
        revert hk; split <;> intro hk <;> omega
    · rename_i hu
      simp only [hu, if_false, Bool.false_eq_true] at h2 ⊢
      obtain ⟨s, g1, g2⟩ := ih _ _ k h1 h2
      exact ⟨s, List.mem_cons_of_mem _ g1, g2⟩

theorem foldl_min (ss : List Server) : ∀ m : Int, (∀ s ∈ ss, m ≤ s.level) →
    ss.foldl (fun m x => if x.level < m then x.level else m) m = m := by
  induction ss with
  | nil => intro m _; rfl
  | cons s ss ih =>
    intro m h
    rw [List.foldl_cons]
    have := h s (by simp)
    rw [if_neg (by omega)]
    exact ih m (fun x hx => h x (by simp [hx]))

/-- The result of `NormalizeLevels` in terms of the sorted list. -/
theorem normalizeLevels_eq (tie : Nat → Nat) (p : Pool) :
    (p.servers = [] ∧ normalizeLevels tie p = p) ∨
    ∃ s ss, sortServers tie p.servers = s :: ss ∧ (∀ x ∈ s :: ss, s.level ≤ x.level) ∧
      normalizeLevels tie p = { p with
        servers := (normWalk s.level s.level 0 (s :: ss)).1
        maxNorm := (normWalk s.level s.level 0 (s :: ss)).2 } := by
  unfold normalizeLevels
  have hperm := sortServers_perm tie p.servers
  have hsort := sortServers_sorted tie p.servers
  cases h : sortServers tie p.servers with
  | nil => left; rw [h] at hperm; exact ⟨List.Perm.nil_eq hperm |>.symm, rfl⟩
  | cons s ss =>
    right
    rw [h] at hsort
    have hmin : ∀ x ∈ s :: ss, s.level ≤ x.level := by
      intro x hx
      rcases List.mem_cons.1 hx with rfl | hx
      · exact Int.le_refl _
      · exact (List.pairwise_cons.1 hsort).1 x hx
    refine ⟨s, ss, rfl, hmin, ?_⟩
    simp only
    rw [foldl_min _ _ hmin]

/-! ### Counting -/

theorem countConns_append (a b : List PConn) (srv : Nat) : countConns (a ++ b) srv = countConns a srv + countConns b srv := by
  simp [countConns]

theorem countConns_addConns (conns : List PConn) (nid srv have_ max x : Nat) :
    countConns (addConns conns nid srv have_ max) x = countConns conns x + if x = srv then max - have_ else 0 := by
  unfold addConns
  rw [countConns_append]
  congr 1
  unfold countConns
  split
  · rename_i h; subst h
    rw [List.filter_eq_self.2]
    · simp
    · intro a ha; simp only [List.mem_map, List.mem_range] at ha
      obtain ⟨i, _, rfl⟩ := ha; simp
  · rename_i h
    rw [List.filter_eq_nil_iff.2]
    · rfl
    · intro a ha; simp only [List.mem_map, List.mem_range] at ha
      obtain ⟨i, _, rfl⟩ := ha
      simp only [beq_iff_eq]; exact fun h' => h h'.symm

/-- Walking over the servers every level is at most one above those seen. -/
def Chain : Nat → List Server → Prop
  | _, [] => True
  | n, s :: ss => s.norm ≤ n ∧ -1 ≤ s.norm ∧ Chain (if (n : Int) ≤ s.norm then n + 1 else n) ss

theorem normWalk_chain (m : Int) (ss : List Server) : ∀ (last : Int) (mx n : Nat),
    n = mx + 1 → Chain n (normWalk m last mx ss).1 := by
  induction ss with
  | nil => intros; trivial
  | cons s ss ih =>
    intro last mx n hn
    rw [normWalk]
    split
    · simp only [Chain]
      refine ⟨by split <;> omega, by split <;> omega, ?_⟩
      apply ih
      split <;> split <;> omega
    · simp only [Chain]
      refine ⟨by omega, by omega, ?_⟩
      rw [if_neg (by omega)]
      exact ih _ _ _ hn

theorem normWalk_chain0 (s : Server) (ss : List Server) : Chain 0 (normWalk s.level s.level 0 (s :: ss)).1 := by
  rw [normWalk]
  have hu : usable s.level s = true := by simp [usable]
  simp only [hu, if_true, ne_eq, not_true_eq_false, if_false, Chain]
  refine ⟨by simp, by simp, ?_⟩
  rw [if_pos (by decide)]
  exact normWalk_chain _ _ _ _ _ rfl

theorem getD_append_zero (l : List Int) (i : Nat) : (l ++ [0]).getD i 0 = l.getD i 0 := by
  simp only [List.getD_eq_getElem?_getD]
  by_cases h : i < l.length
  · rw [List.getElem?_append_left h]
  · rw [List.getElem?_eq_none (by omega : l.length ≤ i)]
    by_cases h' : i = l.length
    · subst h'; simp
    · rw [List.getElem?_eq_none (by simp; omega)]

theorem addLevel_some {levels : List Int} {i : Nat} (n : Int) (h : i < levels.length) :
    addLevel levels i n = some (levels.set i (levels.getD i 0 + n)) := by
  unfold addLevel; rw [if_pos h]

theorem getD_set (l : List Int) (i j : Nat) (v : Int) (h : i < l.length) :
    (l.set i v).getD j 0 = if i = j then v else l.getD j 0 := by
  simp only [List.getD_eq_getElem?_getD, List.getElem?_set]
  split
  · rename_i hij; subst hij; simp [h]
  · rfl

/-- Connections of the active servers with a level `l`, for a list of servers. -/
def sumLevel (conns : List PConn) (l : Nat) : List Server → Nat
  | [] => 0
  | s :: ss => (if s.norm = (l : Int) ∧ s.active = true then countConns conns s.id else 0) + sumLevel conns l ss

theorem sumLevel_congr (a b : List PConn) (l : Nat) (ss : List Server) (h : ∀ s ∈ ss, countConns a s.id = countConns b s.id) :
    sumLevel a l ss = sumLevel b l ss := by
  induction ss with
  | nil => rfl
  | cons s ss ih =>
    rw [sumLevel, sumLevel, h s (by simp), ih (fun x hx => h x (by simp [hx]))]

/-- What `InitConnections` does with the connections and counters. -/
theorem initLoop_spec (ss : List Server) : ∀ (conns : List PConn) (levels : List Int) (nid : Nat),
    Chain levels.length ss → (ss.map (·.id)).Nodup → (∀ c ∈ conns, c.id < nid) → (conns.map (·.id)).Nodup →
    ∃ new levels' nid', initLoop ss conns levels nid = some (conns ++ new, levels', nid') ∧
      nid ≤ nid' ∧ (∀ c ∈ conns ++ new, c.id < nid') ∧ ((conns ++ new).map (·.id)).Nodup ∧
      (∀ c ∈ new, c.inUse = false ∧ c.connected = false ∧ nid ≤ c.id ∧ ∃ s ∈ ss, s.id = c.srv ∧ s.norm > -1 ∧ s.active = true) ∧
      (∀ x, (∀ s ∈ ss, s.id ≠ x) → countConns (conns ++ new) x = countConns conns x) ∧
      (∀ s ∈ ss, countConns (conns ++ new) s.id = countConns conns s.id ∨ countConns (conns ++ new) s.id ≤ s.maxConn) ∧
      (∀ s ∈ ss, s.norm > -1 → s.active = true → s.maxConn ≤ countConns (conns ++ new) s.id) ∧
      levels.length ≤ levels'.length ∧ (∀ s ∈ ss, s.norm < levels'.length) ∧
      (∀ l, levels'.getD l 0 = levels.getD l 0 + sumLevel (conns ++ new) l ss) := by
  induction ss with
  | nil =>
    intro conns levels nid _ _ h1 h2
    exact ⟨[], levels, nid, by simp [initLoop], Nat.le_refl _, by simpa using h1, by simpa using h2, by simp, by simp,
      by simp, by simp, Nat.le_refl _, by simp, by simp [sumLevel]⟩
  | cons s ss ih =>
    intro conns levels nid hch hnd hid hcn
    obtain ⟨hc1, hc0, hc2⟩ := hch
    rw [List.map_cons, List.nodup_cons] at hnd
    obtain ⟨hs, hnd⟩ := hnd
    have hs' : ∀ t ∈ ss, t.id ≠ s.id := fun t ht h => hs (by rw [← h]; exact List.mem_map_of_mem ht)
    rw [initLoop]
    by_cases hn : s.norm > -1
    · simp only [hn, if_true]
      -- the levels after the possible push
      generalize hlv : (if (levels.length : Int) ≤ s.norm then levels ++ [0] else levels) = lv
      have hlen : lv.length = if (levels.length : Int) ≤ s.norm then levels.length + 1 else levels.length := by
        rw [← hlv]; split <;> simp
      have hget : ∀ l, lv.getD l 0 = levels.getD l 0 := by
        intro l; rw [← hlv]; split
        · exact getD_append_zero _ _
        · rfl
      have hlt : s.norm.toNat < lv.length := by rw [hlen]; split <;> omega
      have hle : levels.length ≤ lv.length := by rw [hlen]; split <;> omega
      rw [← hlen] at hc2
      by_cases ha : s.active = true
      · simp only [ha, if_true]
        rw [addLevel_some _ hlt]
        simp only [Option.bind_eq_bind, Option.bind_some]
        have hnew_id : ∀ c ∈ addConns conns nid s.id (countConns conns s.id) s.maxConn,
            c.id < nid + (s.maxConn - countConns conns s.id) := by
          intro c hc
          unfold addConns at hc
          rcases List.mem_append.1 hc with hc | hc
          · have := hid c hc; omega
          · simp only [List.mem_map, List.mem_range] at hc
            obtain ⟨i, hi, rfl⟩ := hc; simp only; omega
        have hnew_nd : ((addConns conns nid s.id (countConns conns s.id) s.maxConn).map (·.id)).Nodup := by
          unfold addConns
          rw [List.map_append, List.nodup_append]
          refine ⟨hcn, ?_, ?_⟩
          · rw [List.map_map]
            have : ((fun x : PConn => x.id) ∘ fun i => ({ id := nid + i, srv := s.id } : PConn)) = fun i => nid + i := rfl
            rw [this]
            exact List.nodup_range.map (fun a b h => by simpa using h)
          · intro a ha b hb
            simp only [List.mem_map] at ha hb
            obtain ⟨c, hc, rfl⟩ := ha
            obtain ⟨d, ⟨i, _, rfl⟩, rfl⟩ := hb
            have := hid c hc
            simp only; omega
        obtain ⟨new, levels', nid', g1, g2, g3, g4, g5, g6, g7, g8, g9, g10, g11⟩ :=
          ih (addConns conns nid s.id (countConns conns s.id) s.maxConn)
            (lv.set s.norm.toNat (lv.getD s.norm.toNat 0 + ((max (countConns conns s.id) s.maxConn : Nat) : Int)))
            (nid + (s.maxConn - countConns conns s.id)) (by simpa using hc2) hnd hnew_id hnew_nd
        have hadd : addConns conns nid s.id (countConns conns s.id) s.maxConn ++ new =
            conns ++ ((List.range (s.maxConn - countConns conns s.id)).map (fun i => { id := nid + i, srv := s.id }) ++ new) := by
          simp [addConns]
        rw [hadd] at g1 g3 g4 g6 g7 g8 g11
        have hcnt : countConns (conns ++ ((List.range (s.maxConn - countConns conns s.id)).map
            (fun i => ({ id := nid + i, srv := s.id } : PConn)) ++ new)) s.id = max (countConns conns s.id) s.maxConn := by
          rw [g6 s.id (fun t ht h => hs' t ht h), countConns_addConns]; simp only [if_true]; omega
        have hnidlen : (max (countConns conns s.id) s.maxConn : Nat) = max (countConns conns s.id) s.maxConn := rfl
        refine ⟨_, levels', nid', g1, by omega, g3, g4, ?_, ?_, ?_, ?_, ?_, ?_, ?_⟩
        · intro c hc
          rcases List.mem_append.1 hc with hc | hc
          · simp only [List.mem_map, List.mem_range] at hc
            obtain ⟨i, hi, rfl⟩ := hc
            exact ⟨rfl, rfl, by simp, s, by simp, rfl, hn, ha⟩
          · obtain ⟨e1, e2, e3, t, e4, e5⟩ := g5 c hc
            exact ⟨e1, e2, by omega, t, by simp [e4], e5⟩
        · intro x hx
          rw [g6 x (fun t ht => hx t (by simp [ht])), countConns_addConns,
            if_neg (fun h => hx s (by simp) h.symm)]; omega
        · intro t ht
          rcases List.mem_cons.1 ht with rfl | ht
          · rw [hcnt]
            by_cases hm : countConns conns t.id ≤ t.maxConn
            · right; omega
            · left; omega
          · rcases g7 t ht with e | e
            · left
              rw [e, countConns_addConns, if_neg (hs' t ht)]; omega
            · right; exact e
        · intro t ht h1 h2
          rcases List.mem_cons.1 ht with rfl | ht
          · rw [hcnt]; omega
          · exact g8 t ht h1 h2
        · have := g9; simp only [List.length_set] at this; omega
        · intro t ht
          rcases List.mem_cons.1 ht with rfl | ht
          · have := g9; simp only [List.length_set] at this; omega
          · exact g10 t ht
        · intro l
          rw [g11 l, getD_set _ _ _ _ hlt, sumLevel]
          by_cases hl : s.norm.toNat = l
          · rw [if_pos hl, if_pos ⟨by omega, ha⟩, hcnt, hl, hget]; push_cast; omega
          · rw [if_neg hl, if_neg (by rintro ⟨h, _⟩; omega), hget]; push_cast; omega
      · simp only [ha, Bool.false_eq_true, if_false]
        obtain ⟨new, levels', nid', g1, g2, g3, g4, g5, g6, g7, g8, g9, g10, g11⟩ := ih conns lv nid hc2 hnd hid hcn
        refine ⟨new, levels', nid', g1, g2, g3, g4, ?_, ?_, ?_, ?_, by omega, ?_, ?_⟩
        · intro c hc
          obtain ⟨e1, e2, e3, t, e4, e5⟩ := g5 c hc
          exact ⟨e1, e2, e3, t, by simp [e4], e5⟩
        · exact fun x hx => g6 x (fun t ht => hx t (by simp [ht]))
        · intro t ht
          rcases List.mem_cons.1 ht with rfl | ht
          · exact Or.inl (g6 t.id (fun u hu h => hs' u hu h))
          · exact g7 t ht
        · intro t ht h1 h2
          rcases List.mem_cons.1 ht with rfl | ht
          · exact absurd h2 ha
          · exact g8 t ht h1 h2
        · intro t ht
          rcases List.mem_cons.1 ht with rfl | ht
          · omega
          · exact g10 t ht
        · intro l
          rw [g11 l, hget, sumLevel, if_neg (fun h => ha h.2)]; omega
    · simp only [hn, if_false]
      rw [if_neg (by omega)] at hc2
      obtain ⟨new, levels', nid', g1, g2, g3, g4, g5, g6, g7, g8, g9, g10, g11⟩ := ih conns levels nid hc2 hnd hid hcn
      refine ⟨new, levels', nid', g1, g2, g3, g4, ?_, ?_, ?_, ?_, g9, ?_, ?_⟩
      · intro c hc
        obtain ⟨e1, e2, e3, t, e4, e5⟩ := g5 c hc
        exact ⟨e1, e2, e3, t, by simp [e4], e5⟩
      · exact fun x hx => g6 x (fun t ht => hx t (by simp [ht]))
      · intro t ht
        rcases List.mem_cons.1 ht with rfl | ht
        · exact Or.inl (g6 t.id (fun u hu h => hs' u hu h))
        · exact g7 t ht
      · intro t ht h1 h2
        rcases List.mem_cons.1 ht with rfl | ht
        · exact absurd h1 hn
        · exact g8 t ht h1 h2
      · intro t ht
        rcases List.mem_cons.1 ht with rfl | ht
        · omega
        · exact g10 t ht
      · intro l
        rw [g11 l, sumLevel, if_neg (fun h => by omega)]; omega

end Verif.Pool
