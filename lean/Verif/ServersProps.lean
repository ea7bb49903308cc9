import Verif.Servers
import Verif.RecordProps
/-
Property C18: statistics of the servers across changes of the configuration.
-/
namespace Verif.Servers
open Verif.Text Verif.Record

/-! ### Specification -/

/-- Two servers have the same settings, up to upper/lower case. -/
def Same (a b : Key) : Prop :=
  a.name.map lower = b.name.map lower ∧ a.host.map lower = b.host.map lower ∧ a.port = b.port ∧
  a.user.map lower = b.user.map lower
instance (a b : Key) : Decidable (Same a b) := inferInstanceAs (Decidable (_ ∧ _))

theorem Same.refl (a : Key) : Same a a := ⟨rfl, rfl, rfl, rfl⟩
theorem Same.symm {a b : Key} (h : Same a b) : Same b a := ⟨h.1.symm, h.2.1.symm, h.2.2.1.symm, h.2.2.2.symm⟩
theorem Same.trans {a b c : Key} (h : Same a b) (k : Same b c) : Same a c :=
  ⟨h.1.trans k.1, h.2.1.trans k.2.1, h.2.2.1.trans k.2.2.1, h.2.2.2.trans k.2.2.2⟩

theorem mem_of_filter {α : Type} {p : α → Bool} {l : List α} {a : α} (h : a ∈ l.filter p) : a ∈ l := (List.mem_filter.1 h).1

/-! ### References -/

theorem refsFrom_ids (i : Nat) (ks : List Key) : (refsFrom i ks).map (·.stateId) = (List.range' (i + 1) ks.length) := by
  induction ks generalizing i with
  | nil => rfl
  | cons k ks ih => simp [refsFrom, ih, List.range'_succ]

theorem refsFrom_keys (i : Nat) (ks : List Key) : (refsFrom i ks).map (·.key) = ks := by
  induction ks generalizing i with
  | nil => rfl
  | cons k ks ih => simp [refsFrom, ih]

theorem mark_ids (refs : List Ref) (id : Nat) (p : Bool) : (mark refs id p).map (·.stateId) = refs.map (·.stateId) := by
  simp only [mark, List.map_map]
  apply List.map_congr_left
  intro r _; simp only [Function.comp]; by_cases h : r.stateId = id <;> simp [h]

theorem mark_keys (refs : List Ref) (id : Nat) (p : Bool) :
    (mark refs id p).map (fun r => (r.stateId, r.key)) = refs.map (fun r => (r.stateId, r.key)) := by
  simp only [mark, List.map_map]
  apply List.map_congr_left
  intro r _; simp only [Function.comp]; by_cases h : r.stateId = id <;> simp [h]

theorem mem_mark_matched {refs : List Ref} {id : Nat} {p : Bool} {i : Nat}
    (h : ∃ r ∈ refs, r.stateId = i ∧ r.matched = true) : ∃ r ∈ mark refs id p, r.stateId = i ∧ r.matched = true := by
  obtain ⟨r, hr, h1, h2⟩ := h
  refine ⟨_, List.mem_map.2 ⟨r, hr, rfl⟩, ?_⟩
  by_cases e : r.stateId = id <;> simp [e, h2]
  · rw [← e]; exact h1
  · exact h1

theorem mem_mark_self {refs : List Ref} {r : Ref} {p : Bool} (h : r ∈ refs) :
    ∃ q ∈ mark refs r.stateId p, q.stateId = r.stateId ∧ q.matched = true :=
  ⟨_, List.mem_map.2 ⟨r, h, rfl⟩, by simp⟩

/-! ### What a match does: it takes a reference which was free, or nothing -/

theorem findCandidates_false (s : Key) (refs : List Ref) (c : Criteria) :
    findCandidates s refs c false = refs.filter (fun r => fits s c r && !r.matched) := by
  simp [findCandidates]

theorem mem_narrow {s : Key} {c : Criteria} {m : List Ref} {r : Ref} (h : r ∈ narrow s c m) : r ∈ m := by
  unfold narrow at h
  by_cases h1 : m.length > 1
  · rw [if_pos h1] at h
    unfold findCandidates at h
    by_cases h2 : (m.filter (fun r => fits s c r && !r.matched)).length = 0
    · simpa [h2] using h
    · rw [if_neg (by simp only [h2, false_and, not_false_eq_true])] at h
      exact mem_of_filter h
  · rwa [if_neg h1] at h

theorem narrow_ne_nil {s : Key} {c : Criteria} {m : List Ref} (h : m ≠ []) : narrow s c m ≠ [] := by
  unfold narrow
  by_cases h1 : m.length > 1
  · rw [if_pos h1]
    unfold findCandidates
    by_cases h2 : (m.filter (fun r => fits s c r && !r.matched)).length = 0
    · simpa [h2] using h
    · rw [if_neg (by simp only [h2, false_and, not_false_eq_true])]
      intro e; rw [e] at h2; simp at h2
  · rwa [if_neg h1]

/-- The candidates of the first step. -/
theorem perfect_candidates (s : Key) (refs : List Ref) :
    findCandidates s (findCandidates s (findCandidates s (findCandidates s refs .name false) .host false) .port false)
      .user false = refs.filter (fun r => decide (Same s r.key) && !r.matched) := by
  simp only [findCandidates_false, List.filter_filter]
  apply List.filter_congr
  intro r _
  cases hm : r.matched
  · by_cases h1 : s.name.map lower = r.key.name.map lower <;>
    by_cases h2 : s.host.map lower = r.key.host.map lower <;>
    by_cases h3 : s.port = r.key.port <;>
    by_cases h4 : s.user.map lower = r.key.user.map lower <;>
    simp [fits, sameName, Same, h1, h2, h3, h4]
  · simp

theorem perfectMatch_cases (s : Key) (refs : List Ref) :
    perfectMatch s refs = (0, refs) ∨
    ∃ r ∈ refs, r.matched = false ∧ Same s r.key ∧ perfectMatch s refs = (r.stateId, mark refs r.stateId true) := by
  unfold perfectMatch
  simp only [perfect_candidates]
  cases h : refs.filter (fun r => decide (Same s r.key) && !r.matched) with
  | nil => left; rfl
  | cons r m =>
    cases m with
    | nil =>
      right
      have : r ∈ refs.filter (fun r => decide (Same s r.key) && !r.matched) := by rw [h]; simp
      simp only [List.mem_filter, Bool.and_eq_true, decide_eq_true_eq, Bool.not_eq_true'] at this
      exact ⟨r, this.1, this.2.2, this.2.1, rfl⟩
    | cons _ _ => left; rfl

theorem looseMatch_cases (s : Key) (refs : List Ref) :
    (looseMatch s 0 refs = (0, refs) ∧ ∀ r ∈ refs, s.host.map lower = r.key.host.map lower → r.matched = true) ∨
    ∃ r ∈ refs, r.matched = false ∧ s.host.map lower = r.key.host.map lower ∧
      looseMatch s 0 refs = (r.stateId, mark refs r.stateId false) := by
  unfold looseMatch
  simp only [ne_eq, not_true_eq_false, if_false, findCandidates_false]
  cases h : narrow s .port (narrow s .user (narrow s .name (refs.filter (fun r => fits s .host r && !r.matched)))) with
  | nil =>
    left
    refine ⟨rfl, ?_⟩
    intro r hr he
    cases hm : r.matched with
    | true => rfl
    | false =>
      have hne : refs.filter (fun r => fits s .host r && !r.matched) ≠ [] := by
        intro e
        have : r ∈ refs.filter (fun r => fits s .host r && !r.matched) :=
          List.mem_filter.2 ⟨hr, by simp [fits, sameName, he, hm]⟩
        rw [e] at this; simp at this
      exact absurd h (narrow_ne_nil (narrow_ne_nil (narrow_ne_nil hne)))
  | cons r m =>
    right
    have : r ∈ narrow s .port (narrow s .user (narrow s .name (refs.filter (fun r => fits s .host r && !r.matched)))) := by
      rw [h]; simp
    have := mem_narrow (mem_narrow (mem_narrow this))
    simp only [List.mem_filter, Bool.and_eq_true, Bool.not_eq_true', fits, sameName, beq_iff_eq] at this
    exact ⟨r, this.1, this.2.2, this.2.1, rfl⟩

/-! ### Injectivity -/

/-- The numbers given so far are different and belong to references which are taken. -/
def Good (ids : List Nat) (refs : List Ref) : Prop :=
  (ids.filter (· ≠ 0)).Nodup ∧ ∀ i ∈ ids, i ≠ 0 → ∃ r ∈ refs, r.stateId = i ∧ r.matched = true

/-- The numbers of the references are different and not 0. -/
def Numbered (refs : List Ref) : Prop := (refs.map (·.stateId)).Nodup ∧ ∀ r ∈ refs, r.stateId ≠ 0

theorem numbered_mark {refs : List Ref} {id : Nat} {p : Bool} (h : Numbered refs) : Numbered (mark refs id p) := by
  refine ⟨by rw [mark_ids]; exact h.1, ?_⟩
  intro r hr
  obtain ⟨q, hq, rfl⟩ := List.mem_map.1 hr
  have := h.2 q hq
  by_cases e : q.stateId = id <;> simp [e]
  · rw [← e]; exact this
  · exact this

theorem unique_ref {refs : List Ref} (h : (refs.map (·.stateId)).Nodup) {a b : Ref} (ha : a ∈ refs) (hb : b ∈ refs)
    (e : a.stateId = b.stateId) : a = b := by
  induction refs with
  | nil => simp at ha
  | cons r refs ih =>
    simp only [List.map_cons, List.nodup_cons, List.mem_map, not_exists, not_and] at h
    rcases List.mem_cons.1 ha with ha' | ha'
    · rcases List.mem_cons.1 hb with hb' | hb'
      · rw [ha', hb']
      · exact absurd (by rw [← e, ha']) (h.1 b hb')
    · rcases List.mem_cons.1 hb with hb' | hb'
      · exact absurd (by rw [e, hb']) (h.1 a ha')
      · exact ih h.2 ha' hb'

/-- Giving the number of a free reference to a server without number. -/
theorem good_take {pre post : List Nat} {refs : List Ref} {r : Ref} {p : Bool} (hn : Numbered refs)
    (h : Good (pre ++ 0 :: post) refs) (hr : r ∈ refs) (hm : r.matched = false) :
    Good (pre ++ r.stateId :: post) (mark refs r.stateId p) := by
  have hfree : r.stateId ∉ pre ++ 0 :: post := by
    intro hmem
    obtain ⟨q, hq, e, hqm⟩ := h.2 _ hmem (hn.2 r hr)
    rw [unique_ref hn.1 hq hr e, hm] at hqm
    exact Bool.noConfusion hqm
  have hnz := hn.2 r hr
  constructor
  · have h1 := h.1
    simp only [List.filter_append, List.filter_cons, ne_eq, not_true_eq_false, decide_false, Bool.false_eq_true, if_false,
      hnz, not_false_eq_true, decide_true, if_true] at h1 ⊢
    have hp : (List.filter (fun x => decide (¬ x = 0)) pre ++ r.stateId :: List.filter (fun x => decide (¬ x = 0)) post).Perm
        (r.stateId :: (List.filter (fun x => decide (¬ x = 0)) pre ++ List.filter (fun x => decide (¬ x = 0)) post)) :=
      List.perm_middle
    rw [hp.nodup_iff, List.nodup_cons]
    refine ⟨?_, h1⟩
    intro hx
    apply hfree
    rcases List.mem_append.1 hx with hx | hx
    · exact List.mem_append.2 (Or.inl (mem_of_filter hx))
    · exact List.mem_append.2 (Or.inr (List.mem_cons_of_mem _ (mem_of_filter hx)))
  · intro i hi h0
    rcases List.mem_append.1 hi with hi | hi
    · exact mem_mark_matched (h.2 i (List.mem_append.2 (Or.inl hi)) h0)
    · rcases List.mem_cons.1 hi with rfl | hi
      · exact mem_mark_self hr
      · exact mem_mark_matched (h.2 i (List.mem_append.2 (Or.inr (List.mem_cons_of_mem _ hi))) h0)

theorem step1_good (ss : List Key) (pre : List Nat) (refs : List Ref) (hn : Numbered refs)
    (h : Good (pre ++ ss.map (fun _ => 0)) refs) :
    Good (pre ++ (step1 ss refs).1) (step1 ss refs).2 ∧ Numbered (step1 ss refs).2 := by
  induction ss generalizing pre refs with
  | nil => exact ⟨by simpa [step1] using h, hn⟩
  | cons s ss ih =>
    simp only [step1, List.map_cons] at h ⊢
    rcases perfectMatch_cases s refs with e | ⟨r, hr, hm, _, e⟩
    · rw [e]
      have := ih (pre ++ [0]) refs hn (by simpa using h)
      simpa using this
    · rw [e]
      have := ih (pre ++ [r.stateId]) (mark refs r.stateId true) (numbered_mark hn) (by simpa using good_take hn h hr hm)
      simpa using this

theorem step1_length (ss : List Key) (refs : List Ref) : (step1 ss refs).1.length = ss.length := by
  induction ss generalizing refs with
  | nil => rfl
  | cons s ss ih => simp [step1, ih]

theorem step2_good (ss : List (Key × Nat)) (pre : List Nat) (refs : List Ref) (hn : Numbered refs)
    (h : Good (pre ++ ss.map (·.2)) refs) :
    Good (pre ++ (step2 ss refs).1) (step2 ss refs).2 ∧ Numbered (step2 ss refs).2 := by
  induction ss generalizing pre refs with
  | nil => exact ⟨by simpa [step2] using h, hn⟩
  | cons s ss ih =>
    obtain ⟨s, id⟩ := s
    simp only [step2, List.map_cons] at h ⊢
    by_cases h0 : id = 0
    · subst h0
      rcases looseMatch_cases s refs with ⟨e, _⟩ | ⟨r, hr, hm, _, e⟩
      · rw [e]
        have := ih (pre ++ [0]) refs hn (by simpa using h)
        simpa using this
      · rw [e]
        have := ih (pre ++ [r.stateId]) (mark refs r.stateId false) (numbered_mark hn) (by simpa using good_take hn h hr hm)
        simpa using this
    · have e : looseMatch s id refs = (id, refs) := by simp [looseMatch, h0]
      rw [e]
      have := ih (pre ++ [id]) refs hn (by simpa using h)
      simpa using this

theorem numbered_refsOf (stored : List Key) : Numbered (refsOf stored) := by
  constructor
  · rw [refsOf, refsFrom_ids]; exact List.nodup_range'
  · intro r hr
    have : r.stateId ∈ (refsOf stored).map (·.stateId) := List.mem_map.2 ⟨r, hr, rfl⟩
    rw [refsOf, refsFrom_ids, List.mem_range'_1] at this
    omega

theorem zip_snd (ss : List Key) (ids : List Nat) (h : ids.length = ss.length) : (ss.zip ids).map (·.2) = ids := by
  rw [List.map_snd_zip]; omega

theorem matchServers_good (servers stored : List Key) :
    Good (stateIds servers stored) (matchServers servers (refsOf stored)).2 ∧
      Numbered (matchServers servers (refsOf stored)).2 := by
  have h1 := step1_good servers [] (refsOf stored) (numbered_refsOf stored) ⟨by
    have : (servers.map (fun _ => 0)).filter (· ≠ 0) = [] := by
      rw [List.filter_eq_nil_iff]; intro a ha; obtain ⟨_, _, rfl⟩ := List.mem_map.1 ha; simp
    rw [List.nil_append, this]; exact List.nodup_nil, by
    intro i hi h0; rw [List.nil_append] at hi; obtain ⟨_, _, rfl⟩ := List.mem_map.1 hi; exact absurd rfl h0⟩
  have := step2_good (servers.zip (step1 servers (refsOf stored)).1) [] (step1 servers (refsOf stored)).2 h1.2
    (by rw [zip_snd _ _ (step1_length _ _)]; exact h1.1)
  simpa [stateIds, matchServers] using this

theorem step2_length (ss : List (Key × Nat)) (refs : List Ref) : (step2 ss refs).1.length = ss.length := by
  induction ss generalizing refs with
  | nil => rfl
  | cons s ss ih => obtain ⟨s, i⟩ := s; simp [step2, ih]

theorem stateIds_length (servers stored : List Key) : (stateIds servers stored).length = servers.length := by
  simp [stateIds, matchServers, step2_length, step1_length]

theorem step1_ids (ss : List Key) (refs : List Ref) : (step1 ss refs).2.map (·.stateId) = refs.map (·.stateId) := by
  induction ss generalizing refs with
  | nil => rfl
  | cons s ss ih =>
    simp only [step1, ih]
    rcases perfectMatch_cases s refs with e | ⟨r, _, _, _, e⟩ <;> rw [e]
    exact mark_ids _ _ _

theorem step2_ids (ss : List (Key × Nat)) (refs : List Ref) : (step2 ss refs).2.map (·.stateId) = refs.map (·.stateId) := by
  induction ss generalizing refs with
  | nil => rfl
  | cons s ss ih =>
    obtain ⟨s, id⟩ := s
    simp only [step2, ih]
    by_cases h0 : id = 0
    · subst h0
      rcases looseMatch_cases s refs with ⟨e, _⟩ | ⟨r, _, _, _, e⟩ <;> rw [e]
      exact mark_ids _ _ _
    · simp [looseMatch, h0]

theorem nodup_filter_inj {l : List Nat} (h : (l.filter (· ≠ 0)).Nodup) {i j : Nat} {x : Nat} (hi : l[i]? = some x)
    (hj : l[j]? = some x) (hij : i ≠ j) : x = 0 := by
  induction l generalizing i j with
  | nil => simp at hi
  | cons a l ih =>
    by_cases hx : x = 0
    · exact hx
    have key : ∀ k : Nat, a = x → l[k]? = some x → False := by
      intro k ha hk
      subst ha
      rw [List.filter_cons_of_pos (by simpa using hx), List.nodup_cons] at h
      exact h.1 (List.mem_filter.2 ⟨List.mem_of_getElem? hk, by simpa using hx⟩)
    have hl : (l.filter (· ≠ 0)).Nodup := by
      by_cases ha : a = 0
      · rw [List.filter_cons_of_neg (by simpa using ha)] at h; exact h
      · rw [List.filter_cons_of_pos (by simpa using ha), List.nodup_cons] at h; exact h.2
    cases i with
    | zero =>
      cases j with
      | zero => exact absurd rfl hij
      | succ j => exact (key j (by simpa using hi) (by simpa using hj)).elim
    | succ i =>
      cases j with
      | zero => exact (key i (by simpa using hj) (by simpa using hi)).elim
      | succ j => exact ih hl (by simpa using hi) (by simpa using hj) (by omega)

/-- C18: whatever the stored servers and whatever the new configuration, two configured servers never get the statistics
of the same stored server (`0`: a server gets no statistics), and the numbers refer to stored servers. -/
theorem server_match_injective (servers stored : List Key) :
    (stateIds servers stored).length = servers.length ∧
    (∀ (i j : Nat) (x : Nat), (stateIds servers stored)[i]? = some x → (stateIds servers stored)[j]? = some x → i ≠ j → x = 0) ∧
    ∀ x ∈ stateIds servers stored, x ≤ stored.length := by
  have h := matchServers_good servers stored
  refine ⟨stateIds_length _ _, fun i j x hi hj hij => nodup_filter_inj h.1.1 hi hj hij, ?_⟩
  intro x hx
  by_cases h0 : x = 0
  · omega
  · obtain ⟨r, hr, e, _⟩ := h.1.2 x hx h0
    have hm : r.stateId ∈ (matchServers servers (refsOf stored)).2.map (·.stateId) := List.mem_map.2 ⟨r, hr, rfl⟩
    simp only [matchServers, step2_ids, step1_ids, refsOf, refsFrom_ids, List.mem_range'_1] at hm
    omega

/-! ### A server with unchanged settings keeps its statistics -/

theorem filter_single {α : Type} (p : α → Bool) (pre : List α) (x : α) (post : List α)
    (h : ((pre ++ x :: post).filter p).length = 1) (hx : p x = true) :
    (∀ y ∈ pre, p y = false) ∧ ∀ y ∈ post, p y = false := by
  rw [List.filter_append, List.filter_cons_of_pos hx, List.length_append, List.length_cons] at h
  have h1 : pre.filter p = [] := List.length_eq_zero_iff.1 (by omega)
  have h2 : post.filter p = [] := List.length_eq_zero_iff.1 (by omega)
  rw [List.filter_eq_nil_iff] at h1 h2
  exact ⟨fun y hy => by simpa using h1 y hy, fun y hy => by simpa using h2 y hy⟩

/-- In the first step, the server `s` at position `pre.length` takes the reference `r` if `r` is the only reference with its
settings and no earlier server has them. -/
theorem step1_takes (pre : List Key) (s : Key) (post : List Key) (refs : List Ref) (r : Ref) (hn : Numbered refs)
    (hr : refs.filter (fun q => decide (Same s q.key)) = [r]) (hm : r.matched = false)
    (hpre : ∀ t ∈ pre, ¬ Same t s) : (step1 (pre ++ s :: post) refs).1[pre.length]? = some r.stateId := by
  induction pre generalizing refs r with
  | nil =>
    have : refs.filter (fun q => decide (Same s q.key) && !q.matched) = [r] := by
      have e : refs.filter (fun q => decide (Same s q.key) && !q.matched) =
          (refs.filter (fun q => decide (Same s q.key))).filter (fun q => !q.matched) := by
        rw [List.filter_filter]; apply List.filter_congr; intro q _; simp [Bool.and_comm]
      rw [e, hr]; simp [hm]
    simp only [List.nil_append, step1, perfectMatch, perfect_candidates, this]
    rfl
  | cons t pre ih =>
    simp only [List.cons_append, step1, List.length_cons, List.getElem?_cons_succ]
    have hrm : r ∈ refs := by
      have : r ∈ refs.filter (fun q => decide (Same s q.key)) := by rw [hr]; simp
      exact mem_of_filter this
    have hrs : Same s r.key := by
      have : r ∈ refs.filter (fun q => decide (Same s q.key)) := by rw [hr]; simp
      simpa using (List.mem_filter.1 this).2
    rcases perfectMatch_cases t refs with e | ⟨q, hq, hqm, hqs, e⟩
    · rw [e]; exact ih refs r hn hr hm (fun u hu => hpre u (by simp [hu]))
    · rw [e]
      have hne : r.stateId ≠ q.stateId := by
        intro he
        have := unique_ref hn.1 hrm hq he
        subst this
        exact hpre t (by simp) (hqs.trans hrs.symm)
      have hmk : (mark refs q.stateId true).filter (fun q => decide (Same s q.key)) = [r] := by
        rw [mark, List.filter_map]
        have : ((fun q : Ref => decide (Same s q.key)) ∘ fun r => if r.stateId = q.stateId then
            { r with matched := true, perfect := r.perfect || true } else r) = (fun q : Ref => decide (Same s q.key)) := by
          funext x; simp only [Function.comp]; by_cases hx : x.stateId = q.stateId <;> simp [hx]
        rw [this, hr]; simp [hne]
      exact ih _ r (numbered_mark hn) hmk hm (fun u hu => hpre u (by simp [hu]))

theorem step2_keeps (ss : List (Key × Nat)) (refs : List Ref) (i : Nat) (s : Key) (id : Nat) (h : ss[i]? = some (s, id))
    (h0 : id ≠ 0) : (step2 ss refs).1[i]? = some id := by
  induction ss generalizing refs i with
  | nil => simp at h
  | cons t ss ih =>
    obtain ⟨t, k⟩ := t
    cases i with
    | zero =>
      simp only [List.getElem?_cons_zero, Option.some.injEq, Prod.mk.injEq] at h
      simp [step2, looseMatch, h.2, h0]
    | succ i =>
      simp only [step2, List.getElem?_cons_succ]
      exact ih _ _ (by simpa using h)

theorem refsFrom_append (i : Nat) (a b : List Key) : refsFrom i (a ++ b) = refsFrom i a ++ refsFrom (i + a.length) b := by
  induction a generalizing i with
  | nil => rfl
  | cons k a ih => simp [refsFrom, ih, Nat.add_comm, Nat.add_left_comm]

theorem filter_refsFrom_nil (i : Nat) (ks : List Key) (s : Key) (h : ∀ k ∈ ks, ¬ Same s k) :
    (refsFrom i ks).filter (fun q => decide (Same s q.key)) = [] := by
  rw [List.filter_eq_nil_iff]
  intro r hr
  have : r.key ∈ (refsFrom i ks).map (·.key) := List.mem_map.2 ⟨r, hr, rfl⟩
  rw [refsFrom_keys] at this
  simpa using h _ this

/-- C18: a server whose settings were stored exactly once (up to case) and are configured for no other server before it
keeps its statistics, however the other servers were changed, added, removed or reordered. -/
theorem unchanged_server_keeps_statistics (before after storedBefore storedAfter : List Key) (s s' : Key)
    (hs : Same s s') (hb : ∀ t ∈ before, ¬ Same t s)
    (h1 : ∀ t ∈ storedBefore, ¬ Same s t) (h2 : ∀ t ∈ storedAfter, ¬ Same s t) :
    (stateIds (before ++ s :: after) (storedBefore ++ s' :: storedAfter))[before.length]? =
      some (storedBefore.length + 1) := by
  have hf : (refsOf (storedBefore ++ s' :: storedAfter)).filter (fun q => decide (Same s q.key)) =
      [⟨storedBefore.length + 1, s', false, false⟩] := by
    rw [refsOf, refsFrom_append, List.filter_append, filter_refsFrom_nil _ _ _ h1]
    simp only [refsFrom, List.nil_append, Nat.zero_add]
    rw [List.filter_cons_of_pos (by simpa using hs), filter_refsFrom_nil _ _ _ h2]
  have := step1_takes before s after _ _ (numbered_refsOf _) hf rfl hb
  simp only [stateIds, matchServers]
  apply step2_keeps _ _ _ s _ _ (by simp)
  rw [List.getElem?_zip_eq_some]
  exact ⟨by simp, this⟩

/-! ### An unchanged configuration -/

/-- How often the settings of `s` occur. -/
def occurs (all : List Key) (s : Key) : Nat := (all.filter (fun k => decide (Same s k))).length

theorem occurs_congr {all : List Key} {a b : Key} (h : Same a b) : occurs all a = occurs all b := by
  unfold occurs
  congr 1
  apply List.filter_congr
  intro k _
  have : Same a k ↔ Same b k := ⟨fun x => h.symm.trans x, fun x => h.trans x⟩
  simp [this]

/-- References `i+1, …` of the keys, with the flags given by `f`. -/
def refsWith (f : Key → Bool) : Nat → List Key → List Ref
  | _, [] => []
  | i, k :: ks => ⟨i + 1, k, f k, f k⟩ :: refsWith f (i + 1) ks

theorem refsFrom_eq (i : Nat) (ks : List Key) : refsFrom i ks = refsWith (fun _ => false) i ks := by
  induction ks generalizing i with
  | nil => rfl
  | cons k ks ih => simp [refsFrom, refsWith, ih]

theorem refsWith_append (f : Key → Bool) (i : Nat) (a b : List Key) :
    refsWith f i (a ++ b) = refsWith f i a ++ refsWith f (i + a.length) b := by
  induction a generalizing i with
  | nil => rfl
  | cons k a ih => simp [refsWith, ih, Nat.add_comm, Nat.add_left_comm]

theorem mem_refsWith {f : Key → Bool} {i : Nat} {ks : List Key} {r : Ref} (h : r ∈ refsWith f i ks) :
    r.key ∈ ks ∧ r.matched = f r.key ∧ i < r.stateId ∧ r.stateId ≤ i + ks.length := by
  induction ks generalizing i with
  | nil => simp [refsWith] at h
  | cons k ks ih =>
    rcases List.mem_cons.1 h with e | e
    · subst e; simp
    · obtain ⟨h1, h2, h3, h4⟩ := ih e
      exact ⟨by simp [h1], h2, by omega, by simp; omega⟩

theorem mark_ne {refs : List Ref} {id : Nat} {p : Bool} (h : ∀ r ∈ refs, r.stateId ≠ id) : mark refs id p = refs := by
  unfold mark
  conv => rhs; rw [← List.map_id refs]
  apply List.map_congr_left
  intro r hr; simp [h r hr]

theorem mark_split {pre post : List Ref} {r : Ref} {p : Bool} (h1 : ∀ q ∈ pre, q.stateId ≠ r.stateId)
    (h2 : ∀ q ∈ post, q.stateId ≠ r.stateId) :
    mark (pre ++ r :: post) r.stateId p = pre ++ { r with matched := true, perfect := r.perfect || p } :: post := by
  have e1 := mark_ne (p := p) h1
  have e2 := mark_ne (p := p) h2
  unfold mark at e1 e2 ⊢
  rw [List.map_append, List.map_cons, e1, e2, if_pos rfl]

theorem filter_refsWith_length (f : Key → Bool) (i : Nat) (ks : List Key) (p : Key → Bool) :
    ((refsWith f i ks).filter (fun r => p r.key)).length = (ks.filter p).length := by
  induction ks generalizing i with
  | nil => rfl
  | cons k ks ih =>
    simp only [refsWith, List.filter_cons]
    by_cases h : p k = true <;> simp [h, ih]

theorem step1_unchanged (all pre post : List Key) (h : all = pre ++ post) :
    step1 post (refsWith (fun k => decide (occurs all k = 1)) 0 pre ++ refsWith (fun _ => false) pre.length post) =
      ((refsWith (fun k => decide (occurs all k = 1)) pre.length post).map (fun r => if r.matched then r.stateId else 0),
        refsWith (fun k => decide (occurs all k = 1)) 0 all) := by
  induction post generalizing pre with
  | nil => simp [step1, refsWith, h]
  | cons s post ih =>
    have key : perfectMatch s (refsWith (fun k => decide (occurs all k = 1)) 0 pre ++
        refsWith (fun _ => false) pre.length (s :: post)) =
        (if occurs all s = 1 then pre.length + 1 else 0,
          refsWith (fun k => decide (occurs all k = 1)) 0 (pre ++ [s]) ++
            refsWith (fun _ => false) (pre ++ [s]).length post) := by
      rw [refsWith_append]
      simp only [perfectMatch, perfect_candidates, refsWith, Nat.zero_add, List.length_append, List.length_cons,
        List.length_nil, List.append_assoc, List.cons_append, List.nil_append]
      by_cases ho : occurs all s = 1
      · have ho' := ho
        unfold occurs at ho'
        rw [h] at ho'
        obtain ⟨hp1, hp2⟩ := filter_single _ _ _ _ ho' (by simpa using Same.refl s)
        have e1 : (refsWith (fun k => decide (occurs all k = 1)) 0 pre).filter
            (fun r => decide (Same s r.key) && !r.matched) = [] := by
          rw [List.filter_eq_nil_iff]
          intro r hr
          have := hp1 _ (mem_refsWith hr).1
          simp only [decide_eq_false_iff_not] at this
          simp [this]
        have e2 : (refsWith (fun _ => false) (pre.length + 1) post).filter
            (fun r => decide (Same s r.key) && !r.matched) = [] := by
          rw [List.filter_eq_nil_iff]
          intro r hr
          have := hp2 _ (mem_refsWith hr).1
          simp only [decide_eq_false_iff_not] at this
          simp [this]
        rw [List.filter_append, e1, List.filter_cons_of_pos (by simpa using Same.refl s), e2]
        simp only [List.nil_append, ho, if_true, decide_true, Prod.mk.injEq, true_and]
        have := mark_split (p := true) (r := ⟨pre.length + 1, s, false, false⟩)
          (pre := refsWith (fun k => decide (occurs all k = 1)) 0 pre)
          (post := refsWith (fun _ => false) (pre.length + 1) post)
          (fun q hq => by have := mem_refsWith hq; simp only; omega)
          (fun q hq => by have := mem_refsWith hq; simp only; omega)
        simpa using this
      · have e : (refsWith (fun k => decide (occurs all k = 1)) 0 pre ++
            ⟨pre.length + 1, s, false, false⟩ :: refsWith (fun _ => false) (pre.length + 1) post).filter
              (fun r => decide (Same s r.key) && !r.matched) =
            (refsWith (fun k => decide (occurs all k = 1)) 0 pre ++
              ⟨pre.length + 1, s, false, false⟩ :: refsWith (fun _ => false) (pre.length + 1) post).filter
                (fun r => decide (Same s r.key)) := by
          apply List.filter_congr
          intro r hr
          by_cases hS : Same s r.key
          · have : r.matched = false := by
              rcases List.mem_append.1 hr with hr | hr
              · rw [(mem_refsWith hr).2.1, ← occurs_congr hS]; simp [ho]
              · rcases List.mem_cons.1 hr with e | hr
                · subst e; rfl
                · exact (mem_refsWith hr).2.1
            simp [this]
          · simp [hS]
        rw [e]
        have hlen : ((refsWith (fun k => decide (occurs all k = 1)) 0 pre ++
              ⟨pre.length + 1, s, false, false⟩ :: refsWith (fun _ => false) (pre.length + 1) post).filter
                (fun r => decide (Same s r.key))).length = occurs all s := by
          have a1 := filter_refsWith_length (fun k => decide (occurs all k = 1)) 0 pre (fun k => decide (Same s k))
          have a2 := filter_refsWith_length (fun _ => false) (pre.length + 1) post (fun k => decide (Same s k))
          have a3 : occurs all s = ((pre ++ s :: post).filter (fun k => decide (Same s k))).length := by rw [occurs, h]
          rw [a3, List.filter_append, List.filter_append, List.length_append, List.length_append, a1,
            List.filter_cons_of_pos (by simpa using Same.refl s), List.filter_cons_of_pos (by simpa using Same.refl s),
            List.length_cons, List.length_cons, a2]
        rw [if_neg ho]
        simp only [ho, decide_false]
        cases hc : (refsWith (fun k => decide (occurs all k = 1)) 0 pre ++
              ⟨pre.length + 1, s, false, false⟩ :: refsWith (fun _ => false) (pre.length + 1) post).filter
                (fun r => decide (Same s r.key)) with
        | nil => rfl
        | cons x m =>
          cases m with
          | nil => rw [hc] at hlen; exact absurd hlen.symm ho
          | cons _ _ => rfl
    simp only [step1, key]
    have := ih (pre ++ [s]) (by simp [h])
    rw [this]
    simp [refsWith]

/-- All references that fit a server in all criteria, when the server's own reference is among the candidates. -/
theorem narrow_eq_filter {s : Key} {c : Criteria} {m : List Ref} {r : Ref} (hr : r ∈ m) (hf : fits s c r = true)
    (hm : ∀ q ∈ m, q.matched = false) : narrow s c m = m.filter (fits s c) := by
  have e : m.filter (fun r => fits s c r && !r.matched) = m.filter (fits s c) := by
    apply List.filter_congr; intro q hq; simp [hm q hq]
  unfold narrow
  by_cases h1 : m.length > 1
  · rw [if_pos h1]
    unfold findCandidates
    rw [e]
    have : r ∈ m.filter (fits s c) := List.mem_filter.2 ⟨hr, hf⟩
    have : ¬ (m.filter (fits s c)).length = 0 := by
      intro h0; rw [List.length_eq_zero_iff.1 h0] at this; simp at this
    simp [this]
  · rw [if_neg h1]
    have : m = [r] := by
      cases m with
      | nil => simp at hr
      | cons a m =>
        cases m with
        | nil => simp at hr; rw [hr]
        | cons _ _ => simp at h1
    rw [this]; simp [hf]

theorem fits_self (s : Key) (c : Criteria) (r : Ref) (h : r.key = s) : fits s c r = true := by
  cases c <;> simp [fits, sameName, h]

theorem loose_candidates (s : Key) (refs : List Ref) (r : Ref) (hr : r ∈ refs) (hk : r.key = s) (hm : r.matched = false) :
    narrow s .port (narrow s .user (narrow s .name (findCandidates s refs .host false))) =
      refs.filter (fun q => decide (Same s q.key) && !q.matched) := by
  rw [findCandidates_false]
  have m0 : ∀ q ∈ refs.filter (fun r => fits s .host r && !r.matched), q.matched = false := by
    intro q hq; have := (List.mem_filter.1 hq).2; simp at this; exact this.2
  have r0 : r ∈ refs.filter (fun r => fits s .host r && !r.matched) :=
    List.mem_filter.2 ⟨hr, by simp [fits_self s .host r hk, hm]⟩
  rw [narrow_eq_filter r0 (fits_self s .name r hk) m0]
  have r1 := List.mem_filter.2 ⟨r0, fits_self s .name r hk⟩
  have m1 : ∀ q ∈ (refs.filter (fun r => fits s .host r && !r.matched)).filter (fits s .name), q.matched = false :=
    fun q hq => m0 q (mem_of_filter hq)
  rw [narrow_eq_filter r1 (fits_self s .user r hk) m1]
  have r2 := List.mem_filter.2 ⟨r1, fits_self s .user r hk⟩
  rw [narrow_eq_filter r2 (fits_self s .port r hk) (fun q hq => m1 q (mem_of_filter hq))]
  simp only [List.filter_filter]
  apply List.filter_congr
  intro q _
  cases hm : q.matched
  · by_cases h1 : s.name.map lower = q.key.name.map lower <;>
    by_cases h2 : s.host.map lower = q.key.host.map lower <;>
    by_cases h3 : s.port = q.key.port <;>
    by_cases h4 : s.user.map lower = q.key.user.map lower <;>
    simp [fits, sameName, Same, h1, h2, h3, h4]
  · simp

/-- References before the current server in the second step: all taken (the flag `perfect` as before). -/
def refsTaken (f : Key → Bool) : Nat → List Key → List Ref
  | _, [] => []
  | i, k :: ks => ⟨i + 1, k, true, f k⟩ :: refsTaken f (i + 1) ks

theorem refsTaken_append (f : Key → Bool) (i : Nat) (a b : List Key) :
    refsTaken f i (a ++ b) = refsTaken f i a ++ refsTaken f (i + a.length) b := by
  induction a generalizing i with
  | nil => rfl
  | cons k a ih => simp [refsTaken, ih, Nat.add_comm, Nat.add_left_comm]

theorem mem_refsTaken {f : Key → Bool} {i : Nat} {ks : List Key} {r : Ref} (h : r ∈ refsTaken f i ks) :
    r.matched = true ∧ r.stateId ≤ i + ks.length := by
  induction ks generalizing i with
  | nil => simp [refsTaken] at h
  | cons k ks ih =>
    rcases List.mem_cons.1 h with e | e
    · subst e; simp
    · have := ih e; exact ⟨this.1, by simp; omega⟩

theorem step2_unchanged (f : Key → Bool) (pre post : List Key) :
    (step2 (post.zip ((refsWith f pre.length post).map (fun r => if r.matched then r.stateId else 0)))
      (refsTaken f 0 pre ++ refsWith f pre.length post)).1 = List.range' (pre.length + 1) post.length := by
  induction post generalizing pre with
  | nil => rfl
  | cons s post ih =>
    have key : looseMatch s (if f s then pre.length + 1 else 0)
        (refsTaken f 0 pre ++ ⟨pre.length + 1, s, f s, f s⟩ :: refsWith f (pre.length + 1) post) =
        (pre.length + 1, refsTaken f 0 (pre ++ [s]) ++ refsWith f (pre ++ [s]).length post) := by
      rw [refsTaken_append]
      simp only [refsTaken, Nat.zero_add, List.length_append, List.length_cons, List.length_nil, List.append_assoc,
        List.cons_append, List.nil_append]
      cases hf : f s with
      | true => simp [looseMatch]
      | false =>
        simp only [looseMatch, Bool.false_eq_true, if_false, ne_eq, not_true_eq_false]
        rw [loose_candidates s _ ⟨pre.length + 1, s, false, false⟩ (by simp) rfl rfl]
        have e1 : (refsTaken f 0 pre).filter (fun q => decide (Same s q.key) && !q.matched) = [] := by
          rw [List.filter_eq_nil_iff]; intro r hr; simp [(mem_refsTaken hr).1]
        rw [List.filter_append, e1, List.filter_cons_of_pos (by simpa using Same.refl s)]
        simp only [List.nil_append, Prod.mk.injEq, true_and]
        have := mark_split (p := false) (r := ⟨pre.length + 1, s, false, false⟩)
          (pre := refsTaken f 0 pre) (post := refsWith f (pre.length + 1) post)
          (fun q hq => by have := mem_refsTaken hq; simp only; omega)
          (fun q hq => by have := mem_refsWith hq; simp only; omega)
        simpa using this
    simp only [refsWith, List.map_cons, List.zip_cons_cons, step2, key, List.length_cons, List.range'_succ]
    have := ih (pre ++ [s])
    simp only [List.length_append, List.length_cons, List.length_nil, Nat.zero_add] at this ⊢
    rw [this]

/-- C18: an unchanged configuration - of any servers, also with equal settings - gives every server its own statistics. -/
theorem unchanged_configuration (servers : List Key) :
    stateIds servers servers = List.range' 1 servers.length := by
  have h1 := step1_unchanged servers [] servers rfl
  simp only [refsWith, List.nil_append, List.length_nil] at h1
  simp only [stateIds, matchServers, refsOf, refsFrom_eq, h1]
  exact step2_unchanged (fun k => decide (occurs servers k = 1)) [] servers

/-! ### Text and volumes -/

structure ValidKey (k : Key) : Prop where
  name : FitsShort k.name
  host : OneLine k.host ∧ k.host.length ≤ 198
  user : OneLine k.user ∧ k.user.length ≤ 98

theorem loadKey_file (k : Key) (ls : List Bytes) (rest : Bytes) (h : ValidKey k) :
    loadKey (file (saveKey k ++ ls) rest) = some (k, file ls rest) := by
  simp only [loadKey, saveKey, List.cons_append, List.nil_append]
  rw [readLine_file _ _ _ _ h.name.1 (by have := h.name.2; omega)]
  simp only [bind, Option.bind_some]
  rw [readLine_file _ _ _ _ h.host.1 (by have := h.host.2; omega)]
  simp only [Option.bind_some]
  rw [scanLine_file [.i] _ _ _ rfl (by simp)]
  simp only [List.map_cons, List.map_nil, Option.bind_some]
  rw [readLine_file _ _ _ _ h.user.1 (by have := h.user.2; omega)]
  rfl

structure ValidVolume (v : Volume) : Prop where
  dataTime : Time32 v.dataTime
  customTime : Time32 v.customTime
  counts : v.seconds.length < 2 ^ 31 ∧ v.minutes.length < 2 ^ 31 ∧ v.hours.length < 2 ^ 31 ∧ v.days.length < 2 ^ 31

theorem loadArray_file (xs : List I64) (ls : List Bytes) (rest : Bytes) (hn : xs.length < 2 ^ 31) :
    readList loadCell (file (saveArray xs ++ ls) rest) = some (xs, file ls rest) := by
  have := readList_file loadCell (fun x => [showNums (halves x)]) id xs ls rest hn (by
    intro x _ ls
    simp only [loadCell, halves, List.cons_append, List.nil_append]
    rw [scanLine_file [.u, .u] _ _ _ rfl (by simp)]
    simp [join_split])
  simpa [saveArray] using this

theorem loadVolume_file (v : Volume) (ls : List Bytes) (rest : Bytes) (h : ValidVolume v) :
    loadVolume (file (saveVolume v ++ ls) rest) = some (v, file ls rest) := by
  obtain ⟨n1, n2, n3, n4⟩ := h.counts
  simp only [loadVolume, saveVolume, List.cons_append, List.nil_append, List.append_assoc]
  rw [scanLine_file [.i, .i, .i] _ _ _ rfl (by simp)]
  simp only [List.map_cons, List.map_nil, bind, Option.bind_some, halves]
  rw [scanLine_file [.u, .u, .u, .u] _ _ _ rfl (by simp)]
  simp only [List.cons_append, List.nil_append, List.map_cons, List.map_nil, Option.bind_some]
  rw [loadArray_file _ _ _ n1]
  simp only [Option.bind_some]
  rw [loadArray_file _ _ _ n2]
  simp only [Option.bind_some]
  rw [loadArray_file _ _ _ n3]
  simp only [Option.bind_some]
  rw [loadArray_file _ _ _ n4]
  simp only [Option.bind_some, join_split, time_roundtrip _ h.dataTime.1 h.dataTime.2,
    time_roundtrip _ h.customTime.1 h.customTime.2]

theorem loadStats_file (servers : List (Nat × Key)) (mem : List Volume) (stored : List Key) (vs : List Volume) (b : Bytes)
    (hk : ∀ k ∈ stored, ValidKey k) (hv : ∀ v ∈ vs, ValidVolume v) (hn : stored.length < 2 ^ 31) (hm : vs.length < 2 ^ 31)
    (hb : saveStats stored vs = some b) :
    loadStats servers mem b = placeVolumes ((servers.map (·.1)).zip (stateIds (servers.map (·.2)) stored)) 0 vs mem := by
  have e := (printLines_some _ _ hb).2 []
  rw [List.append_nil] at e
  rw [e]
  have h1 := readList_file loadKey saveKey id stored (saveVolumes vs) [] hn
    (fun k hk' ls => loadKey_file k ls [] (hk k hk'))
  have h2 := readList_file loadVolume saveVolume id vs [] [] hm (fun v hv' ls => loadVolume_file v ls [] (hv v hv'))
  simp only [loadStats, saveServers, List.cons_append, loadKeys, h1, bind, Option.bind_some, List.map_id]
  rw [List.append_nil] at h2
  unfold saveVolumes
  simp only [h2, Option.bind_some, List.map_id]

theorem target_none {servers : List (Nat × Nat)} {i : Nat} (h : ∀ s ∈ servers, s.2 ≠ i) (t : Option Nat) :
    servers.foldl (fun t s => if s.2 = i then some s.1 else t) t = t := by
  induction servers generalizing t with
  | nil => rfl
  | cons s servers ih =>
    simp only [List.foldl_cons, h s (by simp), if_false]
    exact ih (fun x hx => h x (by simp [hx])) t

/-- With ids 1, 2, … and numbers 1, 2, … every volume goes to its own place. -/
theorem target_range (n k i : Nat) (t : Option Nat) (hi : k < i) (hn : i ≤ k + n) :
    ((List.range' (k + 1) n).zip (List.range' (k + 1) n)).foldl (fun t s => if s.2 = i then some s.1 else t) t = some i := by
  induction n generalizing k t with
  | zero => omega
  | succ n ih =>
    simp only [List.range'_succ, List.zip_cons_cons, List.foldl_cons]
    by_cases h : k + 1 = i
    · rw [if_pos h, target_none]
      · rw [h]
      · intro s hs
        have := (List.of_mem_zip hs).2
        rw [List.mem_range'_1] at this; omega
    · rw [if_neg h]
      exact ih (k + 1) t (by omega) (by omega)

theorem placeVolumes_range (n i : Nat) (vs mem : List Volume) (h : i + vs.length = n + 1) (hm : mem.length = n + 1) :
    placeVolumes ((List.range' 1 n).zip (List.range' 1 n)) i vs mem = some (mem.take i ++ vs) := by
  induction vs generalizing i mem with
  | nil => simp only [placeVolumes]; simp at h; rw [List.take_of_length_le (by omega)]; simp
  | cons v vs ih =>
    simp only [List.length_cons] at h
    have ht : target ((List.range' 1 n).zip (List.range' 1 n)) i = some i := by
      unfold target
      by_cases h0 : i = 0
      · simp [h0]
      · rw [if_neg h0]; exact target_range n 0 i none (by omega) (by omega)
    simp only [placeVolumes, ht]
    rw [if_pos (by omega), ih (i + 1) (mem.set i v) (by omega) (by simpa using hm)]
    have : (mem.set i v).take (i + 1) = mem.take i ++ [v] := by
      rw [List.take_succ_eq_append_getElem (by simp; omega)]
      simp [List.take_set_of_le]
    rw [this]; simp

/-- The ids when all definitions are complete. -/
theorem serverIds_complete (n : Nat) (ks : List Key) : serverIds n (ks.map some) = (List.range' n ks.length).zip ks := by
  induction ks generalizing n with
  | nil => rfl
  | cons k ks ih => simp [serverIds, ih, List.range'_succ]

/-- C18: with an unchanged configuration (complete definitions, settings which fit the reading buffers) all volumes -
the total and those of all servers - come back after a restart. -/
theorem volumes_survive_restart_partial (ks : List Key) (vs mem : List Volume) (b : Bytes)
    (hk : ∀ k ∈ ks, ValidKey k) (hv : ∀ v ∈ vs, ValidVolume v) (hn : ks.length < 2 ^ 31 - 1)
    (hvs : vs.length = 1 + ks.length) (hm : mem.length = 1 + ks.length) (hb : saveStats ks vs = some b) :
    loadStats (serverIds 1 (ks.map some)) mem b = some vs := by
  rw [loadStats_file _ mem ks vs b hk hv (by omega) (by omega) hb, serverIds_complete]
  rw [List.map_fst_zip (by simp), List.map_snd_zip (by simp), unchanged_configuration]
  rw [placeVolumes_range ks.length 0 vs mem (by omega) (by omega)]
  simp

/-! ### Violations -/

/-- Violation of C18: the host name of a server is read into a buffer of 200 bytes, the statistics of a server with a
longer name are lost with every restart: no reference fits. -/
theorem long_host_loses_statistics (k : Key) (rest : Bytes) (hn : FitsShort k.name) (hu : OneLine k.user ∧ k.user.length ≤ 98)
    (hh : OneLine k.host) (hl : 198 < k.host.length) :
    ∃ stored, loadKey (file (saveKey k) rest) = some (stored, rest) ∧ stateIds [k] [stored] = [0] := by
  refine ⟨{ k with host := k.host.take 198 }, ?_, ?_⟩
  · simp only [loadKey, saveKey]
    rw [readLine_file _ _ _ _ hn.1 (by have := hn.2; omega)]
    simp only [bind, Option.bind_some]
    rw [file_cons, readLine_long k.host _ 200 hh (by omega) (by omega)]
    simp only [Option.bind_some]
    rw [scanLine_file [.i] _ _ _ rfl (by simp)]
    simp only [List.map_cons, List.map_nil, Option.bind_some]
    rw [readLine_file _ _ _ _ hu.1 (by have := hu.2; omega)]
    rfl
  · have hne : k.host.map lower ≠ (k.host.take 198).map lower := by
      intro e
      have := congrArg List.length e
      simp at this; omega
    have e : perfectMatch k (refsOf [{ k with host := k.host.take 198 }]) =
        (0, refsOf [{ k with host := k.host.take 198 }]) := by
      rcases perfectMatch_cases k (refsOf [{ k with host := k.host.take 198 }]) with e | ⟨r, hr, _, hs, _⟩
      · exact e
      · have : r = ⟨1, { k with host := k.host.take 198 }, false, false⟩ := by simpa [refsOf, refsFrom] using hr
        rw [this] at hs; exact absurd hs.2.1 hne
    have e2 : looseMatch k 0 (refsOf [{ k with host := k.host.take 198 }]) =
        (0, refsOf [{ k with host := k.host.take 198 }]) := by
      rcases looseMatch_cases k (refsOf [{ k with host := k.host.take 198 }]) with ⟨e, _⟩ | ⟨r, hr, _, hs, _⟩
      · exact e
      · have : r = ⟨1, { k with host := k.host.take 198 }, false, false⟩ := by simpa [refsOf, refsFrom] using hr
        rw [this] at hs; exact absurd hs hne
    simp [stateIds, matchServers, step1, e, step2, e2]

/-- Violation: after an incomplete server definition the ids of the following servers exceed the size of the vector of
volumes: `m_serverVolumes[serverId]` is outside of it for the last server, for every configuration which has an incomplete definition
before a complete one. -/
theorem serverIds_length (n : Nat) (ds : List (Option Key)) :
    (serverIds n ds).length = (ds.filterMap id).length := by
  induction ds generalizing n with
  | nil => rfl
  | cons d ds ih => cases d <;> simp [serverIds, ih]

theorem serverIds_append (n : Nat) (a b : List (Option Key)) :
    serverIds n (a ++ b) = serverIds n a ++ serverIds (n + a.length) b := by
  induction a generalizing n with
  | nil => simp [serverIds]
  | cons d a ih => cases d <;> simp [serverIds, ih, Nat.add_comm, Nat.add_left_comm]

theorem incomplete_definition_breaks_index (ds : List (Option Key)) (k : Key) (h : none ∈ ds) :
    ∃ s ∈ serverIds 1 (ds ++ [some k]), s.2 = k ∧ ¬ indexOk (serverIds 1 (ds ++ [some k])) s.1 := by
  refine ⟨(1 + ds.length, k), ?_, rfl, ?_⟩
  · rw [serverIds_append]; simp [serverIds]
  · unfold indexOk
    rw [serverIds_length]
    have : (ds.filterMap id).length < ds.length := by
      clear k
      induction ds with
      | nil => simp at h
      | cons d ds ih =>
        cases d with
        | none => have := List.length_filterMap_le id ds; simp; omega
        | some d => simp at h; have := ih h; simp; omega
    simp only [List.filterMap_append, List.length_append]
    simp; omega

/-- With complete definitions every index is inside. -/
theorem complete_definitions_index (ks : List Key) : ∀ s ∈ serverIds 1 (ks.map some), indexOk (serverIds 1 (ks.map some)) s.1 := by
  intro s hs
  rw [serverIds_complete] at hs ⊢
  have := (List.of_mem_zip hs).1
  rw [List.mem_range'_1] at this
  simp [indexOk]; omega

/-! ### Concrete cases -/

def kA : Key := ⟨[65], [97, 46, 98], 119, [117]⟩
def kA' : Key := ⟨[97], [65, 46, 98], 119, [85]⟩
def kB : Key := ⟨[66], [98], 563, []⟩

-- reordered, one removed, one new: A keeps its number although its case changed
example : stateIds [kB, kA'] [kA, ⟨[67], [99], 1, []⟩, kB] = [3, 1] := by decide +kernel
example : Same kA' kA ∧ (∀ t ∈ [kB], ¬ Same t kA') := by decide
-- equal servers keep their order
example : stateIds [kA, kB, kA] [kA, kB, kA] = [1, 2, 3] := by decide +kernel
example : ValidKey kA := by
  constructor
  · decide
  · decide
  · decide
example : none ∈ [some kA, none] := by decide
def exVol (n : I64) : Volume := ⟨20000, 1700000000, 1700000001, n, 7, [1, n], [2], [3], [4, 5000000000]⟩
example : ValidVolume (exVol 9) := by
  constructor
  · exact ⟨by decide, by decide⟩
  · exact ⟨by decide, by decide⟩
  · decide
example : ((saveStats [kA, kB] [exVol 1, exVol 2, exVol 3]).bind
    (loadStats [(1, kB), (2, kA)] [exVol 0, exVol 0, exVol 0])) = some [exVol 1, exVol 3, exVol 2] := by decide +kernel

end Verif.Servers
