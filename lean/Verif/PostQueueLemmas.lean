import Verif.PostQueue
import Verif.PostJobProps
/-!
# Lemmas: the queue of post-processing stays consistent
-/
namespace Verif.PostQueue
open Verif.PostJob

/-- A stage, direct unpack or a thread is active for the download. -/
def Busy (e : Ent) : Prop := e.thread = true ∨ ∃ p, e.post = some p ∧ p.working = true

/-- The queue, the active jobs and the counter fit together. -/
structure WF (a : List Nat) (q : List Ent) (n : Int) : Prop where
  ids : (q.map (·.id)).Nodup
  act : a.Nodup
  there : ∀ id ∈ a, ∃ e ∈ q, e.id = id ∧ e.post.isSome = true
  busy : ∀ e ∈ q, Busy e → e.id ∈ a
  count : n = (q.filter (·.post.isSome)).length

theorem uniq {q : List Ent} (h : (q.map (·.id)).Nodup) {e e' : Ent} (h1 : e ∈ q) (h2 : e' ∈ q)
    (hid : e.id = e'.id) : e = e' := by
  induction q with
  | nil => exact nomatch h1
  | cons x q ih =>
    rw [List.map_cons, List.nodup_cons] at h
    rcases List.mem_cons.mp h1 with h1 | h1 <;> rcases List.mem_cons.mp h2 with h2 | h2
    · rw [h1, h2]
    · exact absurd (by rw [← h1, hid]; exact List.mem_map_of_mem h2) h.1
    · exact absurd (by rw [← h2, ← hid]; exact List.mem_map_of_mem h1) h.1
    · exact ih h.2 h1 h2

theorem find_mem {id : Nat} {q : List Ent} {e : Ent} (h : find id q = some e) :
    e ∈ q ∧ e.id = id :=
  ⟨List.mem_of_find?_eq_some h, beq_iff_eq.mp (List.find?_some (p := fun e : Ent => e.id == id) h)⟩

theorem find_of_mem {q : List Ent} (h : (q.map (·.id)).Nodup) {e : Ent} (he : e ∈ q) :
    find e.id q = some e := by
  cases hf : find e.id q with
  | none =>
    unfold find at hf
    exact absurd (beq_self_eq_true e.id) (List.find?_eq_none.mp hf e he)
  | some e' =>
    obtain ⟨h1, h2⟩ := find_mem hf
    rw [uniq h h1 he h2]

theorem mem_upd {id : Nat} {f : Ent → Ent} {q : List Ent} {e' : Ent} (h : e' ∈ upd id f q) :
    ∃ e ∈ q, (e.id = id ∧ e' = f e) ∨ (e.id ≠ id ∧ e' = e) := by
  obtain ⟨e, he, h⟩ := List.mem_map.mp h
  refine ⟨e, he, ?_⟩
  by_cases hi : e.id = id
  · rw [if_pos hi] at h; exact Or.inl ⟨hi, h.symm⟩
  · rw [if_neg hi] at h; exact Or.inr ⟨hi, h.symm⟩

theorem mem_upd_of {id : Nat} {f : Ent → Ent} {q : List Ent} {e : Ent} (he : e ∈ q) :
    (if e.id = id then f e else e) ∈ upd id f q :=
  List.mem_map.mpr ⟨e, he, rfl⟩

theorem upd_ids {id : Nat} {f : Ent → Ent} {q : List Ent} (h : ∀ e, (f e).id = e.id) :
    (upd id f q).map (·.id) = q.map (·.id) := by
  unfold upd
  rw [List.map_map]
  refine List.map_congr_left (fun e _ => ?_)
  show (if e.id = id then f e else e).id = e.id
  by_cases hi : e.id = id
  · rw [if_pos hi, h]
  · rw [if_neg hi]

theorem upd_count {id : Nat} {f : Ent → Ent} {q : List Ent}
    (h : ∀ e, (f e).post.isSome = e.post.isSome) :
    ((upd id f q).filter (·.post.isSome)).length = (q.filter (·.post.isSome)).length := by
  unfold upd
  induction q with
  | nil => rfl
  | cons e q ih =>
    rw [List.map_cons, List.filter_cons, List.filter_cons]
    have : (if e.id = id then f e else e).post.isSome = e.post.isSome := by
      by_cases hi : e.id = id
      · rw [if_pos hi, h]
      · rw [if_neg hi]
    rw [this]
    by_cases hp : e.post.isSome = true
    · rw [if_pos hp, if_pos hp, List.length_cons, List.length_cons, ih]
    · rw [if_neg hp, if_neg hp, ih]

/-- A change which leaves id and post-processing, and doesn't make the download busy. -/
structure Mild (a : List Nat) (f : Ent → Ent) : Prop where
  id : ∀ e, (f e).id = e.id
  post : ∀ e, (f e).post.isSome = e.post.isSome
  busy : ∀ e, Busy (f e) → Busy e ∨ e.id ∈ a

theorem wf_upd {a : List Nat} {q : List Ent} {n : Int} (h : WF a q n) {f : Ent → Ent}
    (hf : Mild a f) (id : Nat) : WF a (upd id f q) n := by
  refine ⟨?_, h.act, ?_, ?_, ?_⟩
  · rw [upd_ids hf.id]; exact h.ids
  · intro i hi
    obtain ⟨e, he, h1, h2⟩ := h.there i hi
    refine ⟨_, mem_upd_of he, ?_, ?_⟩
    · by_cases hx : e.id = id
      · rw [if_pos hx, hf.id]; exact h1
      · rw [if_neg hx]; exact h1
    · by_cases hx : e.id = id
      · rw [if_pos hx, hf.post]; exact h2
      · rw [if_neg hx]; exact h2
  · intro e' he' hb
    obtain ⟨e, he, hc⟩ := mem_upd he'
    rcases hc with ⟨-, rfl⟩ | ⟨-, rfl⟩
    · rw [hf.id]
      rcases hf.busy e hb with hb | hb
      · exact h.busy e he hb
      · exact hb
    · exact h.busy _ he hb
  · rw [upd_count hf.post]; exact h.count

/-! ## Jobs which are done leave -/

theorem mem_completeJob {id : Nat} {q : List Ent} {e' : Ent} (h : e' ∈ completeJob id q) :
    ∃ e ∈ q, (e.id = id ∧ e' = { e with post := none, thread := false }) ∨ (e.id ≠ id ∧ e' = e) := by
  obtain ⟨e, he, h⟩ := List.mem_filterMap.mp h
  refine ⟨e, he, ?_⟩
  by_cases hi : e.id = id
  · rw [if_pos hi] at h
    by_cases hc : e.complete = true
    · rw [if_pos hc] at h; exact nomatch h
    · rw [if_neg hc] at h
      injection h with h
      exact Or.inl ⟨hi, h.symm⟩
  · rw [if_neg hi] at h
    injection h with h
    exact Or.inr ⟨hi, h.symm⟩

theorem completeJob_ids (id : Nat) (q : List Ent) :
    ((completeJob id q).map (·.id)).Sublist (q.map (·.id)) := by
  unfold completeJob
  induction q with
  | nil => exact List.Sublist.refl _
  | cons e q ih =>
    rw [List.filterMap_cons]
    by_cases hi : e.id = id
    · rw [if_pos hi]
      by_cases hc : e.complete = true
      · rw [if_pos hc]
        exact List.Sublist.cons _ ih
      · rw [if_neg hc]
        exact List.Sublist.cons_cons _ ih
    · rw [if_neg hi]
      exact List.Sublist.cons_cons _ ih

theorem completeJob_count {id : Nat} : ∀ {q : List Ent}, (q.map (·.id)).Nodup →
    (∃ e ∈ q, e.id = id ∧ e.post.isSome = true) →
    ((completeJob id q).filter (·.post.isSome)).length + 1 = (q.filter (·.post.isSome)).length
  | [], _, h => by obtain ⟨e, he, -⟩ := h; exact nomatch he
  | x :: q, hn, h => by
    rw [List.map_cons, List.nodup_cons] at hn
    by_cases hi : x.id = id
    · obtain ⟨e, he, h1, h2⟩ := h
      have hx : e = x := by
        rcases List.mem_cons.mp he with he | he
        · exact he
        · exact absurd (by rw [hi, ← h1]; exact List.mem_map_of_mem he) hn.1
      subst hx
      have rest : completeJob id q = q := by
        unfold completeJob
        have : ∀ y ∈ q, (if y.id = id then (if y.complete then none else
            some { y with post := none, thread := false }) else some y) = some y := by
          intro y hy
          rw [if_neg]
          intro hyi
          exact hn.1 (by rw [hi, ← hyi]; exact List.mem_map_of_mem hy)
        clear hn he h1 h2
        induction q with
        | nil => rfl
        | cons y q ih =>
          rw [List.filterMap_cons, this y (List.mem_cons_self ..)]
          dsimp only
          rw [ih (fun z hz => this z (List.mem_cons_of_mem _ hz))]
      rw [List.filter_cons, if_pos h2, List.length_cons]
      have e1 : completeJob id (e :: q) = if e.complete then completeJob id q else
          { e with post := none, thread := false } :: completeJob id q := by
        unfold completeJob
        rw [List.filterMap_cons, if_pos hi]
        by_cases hc : e.complete = true
        · rw [if_pos hc, if_pos hc]
        · rw [if_neg hc, if_neg hc]
      rw [e1, rest]
      by_cases hc : e.complete = true
      · rw [if_pos hc]
      · rw [if_neg hc, List.filter_cons, if_neg nofun]
    · have h' : ∃ e ∈ q, e.id = id ∧ e.post.isSome = true := by
        obtain ⟨e, he, h1, h2⟩ := h
        rcases List.mem_cons.mp he with he | he
        · rw [he] at h1; exact absurd h1 hi
        · exact ⟨e, he, h1, h2⟩
      have e1 : completeJob id (x :: q) = x :: completeJob id q := by
        unfold completeJob
        rw [List.filterMap_cons, if_neg hi]
      rw [e1, List.filter_cons, List.filter_cons]
      have ih := completeJob_count hn.2 h'
      by_cases hp : x.post.isSome = true
      · rw [if_pos hp, if_pos hp, List.length_cons, List.length_cons, ← ih]
      · rw [if_neg hp, if_neg hp, ih]

theorem completeJob_mem {id : Nat} {q : List Ent} {e : Ent} (he : e ∈ q) (hi : e.id ≠ id) :
    e ∈ completeJob id q :=
  List.mem_filterMap.mpr ⟨e, he, by rw [if_neg hi]⟩

/-- The job of `id`, which isn't busy, leaves. -/
theorem wf_complete {k r : List Nat} {q : List Ent} {n : Int} {id : Nat}
    (h : WF (k ++ id :: r) q n) : WF (k ++ r) (completeJob id q) (n - 1) := by
  have hnd := h.act
  have hid : id ∉ k ++ r := by
    rw [List.nodup_append] at hnd
    obtain ⟨-, h2, h3⟩ := hnd
    rw [List.nodup_cons] at h2
    intro hm
    rcases List.mem_append.mp hm with hm | hm
    · exact h3 id hm id (List.mem_cons_self ..) rfl
    · exact h2.1 hm
  have hsub : (k ++ r).Sublist (k ++ id :: r) :=
    List.Sublist.append (List.Sublist.refl _) (List.sublist_cons_self ..)
  refine ⟨List.Sublist.nodup (completeJob_ids id q) h.ids, List.Sublist.nodup hsub hnd, ?_, ?_, ?_⟩
  · intro i hi
    obtain ⟨e, he, h1, h2⟩ := h.there i (hsub.subset hi)
    refine ⟨e, completeJob_mem he ?_, h1, h2⟩
    intro hx
    exact hid (by rw [← hx, h1]; exact hi)
  · intro e' he' hb
    obtain ⟨e, he, hc⟩ := mem_completeJob he'
    rcases hc with ⟨-, rfl⟩ | ⟨hne, rfl⟩
    · rcases hb with hb | ⟨p, hp, -⟩
      · exact nomatch hb
      · exact nomatch hp
    · have := h.busy _ he hb
      rcases List.mem_append.mp this with hm | hm
      · exact List.mem_append_left _ hm
      · rcases List.mem_cons.mp hm with hm | hm
        · exact absurd hm hne
        · exact List.mem_append_right _ hm
  · have := completeJob_count h.ids (h.there id (List.mem_append_right _ (List.mem_cons_self ..)))
    rw [h.count, ← this]
    omega

/-- The job of `id`, which isn't busy, isn't active any more. -/
theorem wf_drop {k r : List Nat} {q : List Ent} {n : Int} {id : Nat} {e : Ent}
    (h : WF (k ++ id :: r) q n) (he : e ∈ q) (hi : e.id = id) (hb : ¬Busy e) : WF (k ++ r) q n := by
  have hsub : (k ++ r).Sublist (k ++ id :: r) :=
    List.Sublist.append (List.Sublist.refl _) (List.sublist_cons_self ..)
  refine ⟨h.ids, List.Sublist.nodup hsub h.act, fun i hx => h.there i (hsub.subset hx), ?_, h.count⟩
  intro e' he' hb'
  have := h.busy e' he' hb'
  rcases List.mem_append.mp this with hm | hm
  · exact List.mem_append_left _ hm
  · rcases List.mem_cons.mp hm with hm | hm
    · exact absurd (uniq h.ids he' he (by rw [hm, hi]) ▸ hb') hb
    · exact List.mem_append_right _ hm

theorem mild_onPost {a : List Nat} {f : Post → Post} (h : ∀ p, (f p).working = true → p.working = true) :
    Mild a (onPost f) := by
  refine ⟨fun _ => rfl, fun e => ?_, fun e hb => ?_⟩
  · show (e.post.map f).isSome = _
    cases e.post <;> rfl
  · rcases hb with hb | ⟨p, hp, hw⟩
    · exact Or.inl (Or.inl hb)
    · have hp : e.post.map f = some p := hp
      cases hx : e.post with
      | none => rw [hx] at hp; exact nomatch hp
      | some p0 =>
        rw [hx] at hp
        injection hp with hp
        exact Or.inl (Or.inr ⟨p0, hx, h p0 (by rw [hp]; exact hw)⟩)

theorem mild_cancel {a : List Nat} : Mild a cancelEnt :=
  mild_onPost (f := fun p => { p with cancelled := true }) (fun _ h => h)

theorem mild_requeue {a : List Nat} : Mild a requeueEnt :=
  mild_onPost (f := fun p => { p with stage := .queued }) (fun _ h => h)

/-! ## Requests for par-checks -/

theorem checkRequestPar_working (o : Opts) (j : Job) :
    (checkRequestPar o j).post.working = true → j.post.working = true := by
  unfold checkRequestPar
  split
  · exact nofun
  · split
    · exact nofun
    · exact id

theorem mild_req (a : List Nat) (o : Opts) : Mild a (reqEnt o) := by
  refine ⟨fun e => ?_, fun e => ?_, fun e hb => ?_⟩
  · unfold reqEnt; cases e.post <;> rfl
  · unfold reqEnt
    cases h : e.post with
    | none => show e.post.isSome = _; rw [h]
    | some p => rfl
  · unfold reqEnt at hb
    cases h : e.post with
    | none => rw [h] at hb; exact Or.inl hb
    | some p =>
      rw [h] at hb
      rcases hb with hb | ⟨p', hp, hw⟩
      · exact Or.inl (Or.inl hb)
      · injection hp with hp
        refine Or.inl (Or.inr ⟨p, h, checkRequestPar_working o ⟨e.nzb, p⟩ ?_⟩)
        rw [← hp] at hw
        exact hw

theorem postOf_some {a : List Nat} {q : List Ent} {n : Int} (h : WF a q n) {id : Nat} (hi : id ∈ a) :
    ∃ e p, e ∈ q ∧ e.id = id ∧ e.post = some p ∧ find id q = some e ∧ postOf id q = some p := by
  obtain ⟨e, he, h1, h2⟩ := h.there id hi
  have hf := find_of_mem h.ids he
  rw [h1] at hf
  cases hp : e.post with
  | none => rw [hp] at h2; exact nomatch h2
  | some p => exact ⟨e, p, he, h1, hp, hf, by unfold postOf; rw [hf]; exact hp⟩

theorem requestAll_wf (o : Opts) {a : List Nat} {n : Int} : ∀ (r : List Nat) (q : List Ent),
    (∀ x ∈ r, x ∈ a) → WF a q n → ∃ q', requestAll o r q = some q' ∧ WF a q' n
  | [], q, _, h => ⟨q, rfl, h⟩
  | id :: r, q, hr, h => by
    obtain ⟨e, p, -, -, -, -, hp⟩ := postOf_some h (hr id (List.mem_cons_self ..))
    unfold requestAll
    rw [hp]
    exact requestAll_wf o r _ (fun x hx => hr x (List.mem_cons_of_mem _ hx)) (wf_upd h (mild_req a o) id)

theorem cleanupAll_wf : ∀ (r k : List Nat) (q : List Ent) (n : Int), WF (k ++ r) q n →
    ∃ a' q' n', cleanupAll r q n = some (a', q', n') ∧ WF (k ++ a') q' n'
  | [], k, q, n, h => ⟨[], q, n, rfl, h⟩
  | id :: r, k, q, n, h => by
    obtain ⟨e, p, he, hi, hp, hf, -⟩ := postOf_some h (List.mem_append_right _ (List.mem_cons_self ..))
    unfold cleanupAll
    rw [hf]
    dsimp only
    rw [hp]
    dsimp only
    by_cases hc : p.working = false ∧ e.thread = false
    · rw [if_pos hc]
      have hb : ¬Busy e := by
        rintro (hb | ⟨p', hp', hw⟩)
        · rw [hc.2] at hb; exact nomatch hb
        · rw [hp] at hp'
          injection hp' with hp'
          rw [← hp', hc.1] at hw
          exact nomatch hw
      by_cases hd : p.stage = .finished ∨ p.cancelled = true
      · rw [if_pos hd]
        exact cleanupAll_wf r k _ _ (wf_complete h)
      · rw [if_neg hd]
        exact cleanupAll_wf r k _ _ (wf_upd (wf_drop h he hi hb) mild_requeue id)
    · rw [if_neg hc]
      have h' : WF ((k ++ [id]) ++ r) q n := by rw [List.append_assoc]; exact h
      obtain ⟨a', q', n', h1, h2⟩ := cleanupAll_wf r (k ++ [id]) q n h'
      rw [h1]
      refine ⟨id :: a', q', n', rfl, ?_⟩
      rw [List.append_assoc] at h2
      exact h2

/-! ## The next job -/

theorem stages_some {a : List Nat} {q : List Ent} {n : Int} (h : WF a q n) : ∀ (r : List Nat),
    (∀ x ∈ r, x ∈ a) → ∃ l, stages q r = some l
  | [], _ => ⟨[], rfl⟩
  | id :: r, hr => by
    obtain ⟨e, p, -, -, -, -, hp⟩ := postOf_some h (hr id (List.mem_cons_self ..))
    obtain ⟨l, hl⟩ := stages_some h r (fun x hx => hr x (List.mem_cons_of_mem _ hx))
    unfold stages
    rw [hp, hl]
    exact ⟨_, rfl⟩

theorem better_fold (ok : Ent → Bool) : ∀ (q : List Ent) (b : Option Ent) (e : Ent),
    q.foldl (better ok) b = some e → (e ∈ q ∧ ok e = true) ∨ b = some e
  | [], b, e, h => Or.inr h
  | x :: q, b, e, h => by
    rcases better_fold ok q _ e h with h1 | h1
    · exact Or.inl ⟨List.mem_cons_of_mem _ h1.1, h1.2⟩
    · unfold better at h1
      cases b with
      | none =>
        dsimp only at h1
        by_cases hx : ok x = true
        · rw [if_pos hx] at h1
          injection h1 with h1
          subst h1
          exact Or.inl ⟨List.mem_cons_self .., hx⟩
        · rw [if_neg hx] at h1; exact nomatch h1
      | some b =>
        dsimp only at h1
        by_cases hx : (ok x && decide (b.prio < x.prio)) = true
        · rw [if_pos hx] at h1
          injection h1 with h1
          subst h1
          rw [Bool.and_eq_true] at hx
          exact Or.inl ⟨List.mem_cons_self .., hx.1⟩
        · rw [if_neg hx] at h1; exact Or.inr h1

theorem pick_mem {paused allow : Bool} {a : List Nat} {q : List Ent} {e : Ent}
    (h : pick paused allow a q = some e) : e ∈ q ∧ eligible paused allow a e = true := by
  rcases better_fold _ q none e h with h | h
  · exact h
  · exact nomatch h

theorem eligible_spec {paused allow : Bool} {a : List Nat} {e : Ent}
    (h : eligible paused allow a e = true) :
    ∃ p, e.post = some p ∧ p.working = false ∧ e.script = false ∧ e.direct = false ∧
      (paused = false ∨ e.force = true) ∧ (allow = true ∨ p.needPar = false) ∧ e.id ∉ a ∧
      e.complete = true := by
  unfold eligible at h
  cases hp : e.post with
  | none => rw [hp] at h; exact nomatch h
  | some p =>
    rw [hp] at h
    simp only [Bool.and_eq_true, Bool.not_eq_true', Bool.or_eq_true] at h
    obtain ⟨⟨⟨⟨⟨⟨h1, h2⟩, h3⟩, h4⟩, h5⟩, h6⟩, h7⟩ := h
    refine ⟨p, rfl, h1, h2, h3, h4, h5, ?_, h7⟩
    intro hm
    rw [List.contains_iff_mem.mpr hm] at h6
    exact nomatch h6

theorem start_id (o : Opts) (b : Bool) (e : Ent) : (startEnt o b e).id = e.id := by
  unfold startEnt; cases e.post <;> rfl

theorem start_isSome (o : Opts) (b : Bool) (e : Ent) :
    (startEnt o b e).post.isSome = e.post.isSome := by
  unfold startEnt
  cases h : e.post with
  | none => show e.post.isSome = _; rw [h]
  | some p => rfl

/-- The job of the next download becomes active. -/
theorem wf_push {a : List Nat} {q : List Ent} {n : Int} (h : WF a q n) {e : Ent} {p : Post}
    (he : e ∈ q) (hp : e.post = some p) (ha : e.id ∉ a) : WF (a ++ [e.id]) q n := by
  refine ⟨h.ids, ?_, ?_, fun x hx hb => List.mem_append_left _ (h.busy x hx hb), h.count⟩
  · rw [List.nodup_append]
    refine ⟨h.act, List.nodup_cons.mpr ⟨List.not_mem_nil, List.nodup_nil⟩, ?_⟩
    intro x hx y hy hxy
    rw [List.mem_singleton] at hy
    exact ha (by rw [← hy, ← hxy]; exact hx)
  · intro i hi
    rcases List.mem_append.mp hi with hi | hi
    · exact h.there i hi
    · rw [List.mem_singleton] at hi
      exact ⟨e, he, hi.symm, by rw [hp]; rfl⟩

theorem wf_start {a : List Nat} {q : List Ent} {n : Int} {id : Nat} (h : WF a q n) (hi : id ∈ a)
    (o : Opts) (b : Bool) : WF a (upd id (startEnt o b) q) n := by
  have e1 : upd id (startEnt o b) q =
      upd id (fun e => if e.id = id then startEnt o b e else e) q := by
    unfold upd
    refine List.map_congr_left (fun e _ => ?_)
    by_cases hx : e.id = id
    · dsimp only; rw [if_pos hx, if_pos hx]
    · rw [if_neg hx, if_neg hx]
  rw [e1]
  refine wf_upd h ⟨fun e => ?_, fun e => ?_, fun e hb => ?_⟩ id
  · by_cases hx : e.id = id
    · rw [if_pos hx, start_id]
    · rw [if_neg hx]
  · by_cases hx : e.id = id
    · rw [if_pos hx, start_isSome]
    · rw [if_neg hx]
  · by_cases hx : e.id = id
    · rw [hx]; exact Or.inr hi
    · rw [if_neg hx] at hb; exact Or.inl hb

/-- What one round of the loop does. -/
theorem loop_wf (c : Cfg) (paused : Bool) : ∀ (f : Nat) (a : List Nat) (q : List Ent) (n : Int),
    WF a q n → ∃ b a' q' n', loop c paused f a q n = some (b, a', q', n') ∧ WF a' q' n'
  | 0, a, q, n, h => ⟨false, a, q, n, rfl, h⟩
  | f + 1, a, q, n, h => by
    obtain ⟨l, hl⟩ := stages_some h a (fun _ hx => hx)
    unfold loop
    rw [hl]
    dsimp only
    by_cases hm : (canRun c.strategy l).1 = true
    · rw [if_pos hm]
      cases hp : pick paused (canRun c.strategy l).2 a q with
      | none => exact ⟨true, a, q, n, rfl, h⟩
      | some e =>
        obtain ⟨he, hel⟩ := pick_mem hp
        obtain ⟨p, h1, h2, -, -, -, -, h7, -⟩ := eligible_spec hel
        dsimp only
        rw [h1]
        dsimp only
        have ht : e.thread = false := by
          cases hx : e.thread with
          | false => rfl
          | true => exact absurd (h.busy e he (Or.inl hx)) h7
        rw [if_neg (by rw [ht]; exact nofun)]
        have hpush := wf_push h he h1 h7
        by_cases hs : p.stage = .queued ∧ (paused = false ∨ e.force = true)
        · rw [if_pos hs]
          have hmem : e.id ∈ a ++ [e.id] := List.mem_append_right _ (List.mem_cons_self ..)
          obtain ⟨q1, hq1, w1⟩ := requestAll_wf c.opts (a ++ [e.id]) _ (fun _ hx => hx)
            (wf_start hpush hmem c.opts (canRun c.strategy l).2)
          rw [hq1]
          dsimp only
          obtain ⟨a2, q2, n2, h3, w2⟩ := cleanupAll_wf (a ++ [e.id]) [] q1 n w1
          rw [h3]
          exact loop_wf c paused f a2 q2 n2 w2
        · rw [if_neg hs]
          exact loop_wf c paused f _ q n hpush
    · rw [if_neg hm]
      exact ⟨true, a, q, n, rfl, h⟩

def St.WF (s : St) : Prop := PostQueue.WF s.active s.queue s.queued

theorem check_wf (c : Cfg) (f : Nat) (s : St) (h : s.WF) :
    ∃ b s', check c f s = some (b, s') ∧ s'.WF := by
  obtain ⟨q1, h1, w1⟩ := requestAll_wf c.opts s.active s.queue (fun _ hx => hx) h
  obtain ⟨a2, q2, n2, h2, w2⟩ := cleanupAll_wf s.active [] q1 s.queued w1
  obtain ⟨b, a', q', n', h3, w3⟩ := loop_wf c s.paused f a2 q2 n2 w2
  unfold check
  rw [h1]
  dsimp only
  rw [h2]
  dsimp only
  rw [h3]
  exact ⟨b, _, rfl, w3⟩

/-! ## All events -/

/-- A post-job is deleted only as long as it is working or isn't active. -/
def SafeEv (s : St) : Ev → Prop
  | .delete id => ∀ e, find id s.queue = some e → ∀ p, e.post = some p →
      p.working = true ∨ id ∉ s.active
  | _ => True

theorem mild_stageDone (a : List Nat) (o : Opts) (w : Work) : Mild a (stageDoneEnt o w) := by
  refine ⟨fun e => ?_, fun e => ?_, fun e hb => ?_⟩
  · unfold stageDoneEnt
    cases e.post with
    | none => rfl
    | some p => dsimp only; split <;> rfl
  · unfold stageDoneEnt
    cases h : e.post with
    | none => show e.post.isSome = _; rw [h]
    | some p =>
      dsimp only
      split
      · rfl
      · rw [h]
  · unfold stageDoneEnt at hb
    cases h : e.post with
    | none => rw [h] at hb; exact Or.inl hb
    | some p =>
      rw [h] at hb
      dsimp only at hb
      split at hb
      · rename_i hc
        rw [Bool.and_eq_true] at hc
        exact Or.inl (Or.inl hc.2)
      · exact Or.inl hb

theorem mild_proceeds (a : List Nat) (s : Stage) : Mild a (proceedsEnt s) := by
  refine ⟨fun e => ?_, fun e => ?_, fun e hb => ?_⟩
  · unfold proceedsEnt
    cases e.post with
    | none => rfl
    | some p => dsimp only; split <;> rfl
  · unfold proceedsEnt
    cases h : e.post with
    | none => show e.post.isSome = _; rw [h]
    | some p =>
      dsimp only
      split
      · rfl
      · rw [h]
  · unfold proceedsEnt at hb
    cases h : e.post with
    | none => rw [h] at hb; exact Or.inl hb
    | some p =>
      rw [h] at hb
      dsimp only at hb
      split at hb
      · rename_i hc
        simp only [Bool.and_eq_true] at hc
        exact Or.inl (Or.inl hc.1.1.2)
      · exact Or.inl hb

theorem mild_threadEnd (a : List Nat) : Mild a threadEndEnt := by
  refine ⟨fun e => ?_, fun e => ?_, fun e hb => ?_⟩
  · unfold threadEndEnt
    cases e.post with
    | none => rfl
    | some p => dsimp only; split <;> rfl
  · unfold threadEndEnt
    cases h : e.post with
    | none => show e.post.isSome = _; rw [h]
    | some p =>
      dsimp only
      split
      · rw [h]
      · rfl
  · unfold threadEndEnt at hb
    cases h : e.post with
    | none => rw [h] at hb; exact Or.inl hb
    | some p =>
      rw [h] at hb
      dsimp only at hb
      split at hb
      · exact Or.inl hb
      · rcases hb with hb | hb
        · exact nomatch hb
        · obtain ⟨p', hp', hw⟩ := hb
          exact Or.inl (Or.inr ⟨p', h.trans hp', hw⟩)

theorem mild_directDone (a : List Nat) : Mild a directDoneEnt := by
  refine ⟨fun e => ?_, fun e => ?_, fun e hb => ?_⟩
  · unfold directDoneEnt; split <;> rfl
  · unfold directDoneEnt
    split
    · rfl
    · show (e.post.map _).isSome = _
      cases e.post <;> rfl
  · unfold directDoneEnt at hb
    split at hb
    · exact Or.inl hb
    · rename_i ht
      rcases hb with hb | ⟨p, hp, hw⟩
      · exact absurd hb ht
      · have hp : e.post.map _ = some p := hp
        cases hx : e.post with
        | none => rw [hx] at hp; exact nomatch hp
        | some p0 =>
          rw [hx] at hp
          injection hp with hp
          rw [← hp] at hw
          exact nomatch hw

theorem wf_cancel {a : List Nat} {q : List Ent} {n : Int} {id : Nat} (h : WF a q n) (hi : id ∉ a)
    (hp : ∃ e ∈ q, e.id = id ∧ e.post.isSome = true) : WF a (completeJob id q) (n - 1) := by
  refine ⟨List.Sublist.nodup (completeJob_ids id q) h.ids, h.act, ?_, ?_, ?_⟩
  · intro i hx
    obtain ⟨e, he, h1, h2⟩ := h.there i hx
    refine ⟨e, completeJob_mem he ?_, h1, h2⟩
    intro hy
    exact hi (by rw [← hy, h1]; exact hx)
  · intro e' he' hb
    obtain ⟨e, he, hc⟩ := mem_completeJob he'
    rcases hc with ⟨-, rfl⟩ | ⟨hne, rfl⟩
    · rcases hb with hb | ⟨p, hp, -⟩
      · exact nomatch hb
      · exact nomatch hp
    · exact h.busy _ he hb
  · have := completeJob_count h.ids hp
    rw [h.count, ← this]
    omega

theorem upd_enter_count {id : Nat} {f : Ent → Ent} : ∀ {q : List Ent}, (q.map (·.id)).Nodup →
    (∀ e, (f e).post.isSome = true) → (∃ e ∈ q, e.id = id ∧ e.post = none) →
    ((upd id f q).filter (·.post.isSome)).length = (q.filter (·.post.isSome)).length + 1
  | [], _, _, h => by obtain ⟨e, he, -⟩ := h; exact nomatch he
  | x :: q, hn, hf, h => by
    rw [List.map_cons, List.nodup_cons] at hn
    have e1 : upd id f (x :: q) = (if x.id = id then f x else x) :: upd id f q := rfl
    obtain ⟨e, he, h1, h2⟩ := h
    by_cases hi : x.id = id
    · have hx : e = x := by
        rcases List.mem_cons.mp he with he | he
        · exact he
        · exact absurd (by rw [hi, ← h1]; exact List.mem_map_of_mem he) hn.1
      subst hx
      have rest : upd id f q = q := by
        unfold upd
        conv => rhs; rw [← List.map_id q]
        refine List.map_congr_left (fun y hy => ?_)
        rw [if_neg]
        · rfl
        · intro hyi
          exact hn.1 (by rw [hi, ← hyi]; exact List.mem_map_of_mem hy)
      rw [e1, if_pos hi, rest, List.filter_cons, if_pos (hf e), List.length_cons, List.filter_cons,
        if_neg (by rw [h2]; exact nofun)]
    · rw [e1, if_neg hi, List.filter_cons, List.filter_cons]
      have he' : e ∈ q := by
        rcases List.mem_cons.mp he with he | he
        · rw [he] at h1; exact absurd h1 hi
        · exact he
      have ih := upd_enter_count hn.2 hf ⟨e, he', h1, h2⟩
      by_cases hp : x.post.isSome = true
      · rw [if_pos hp, if_pos hp, List.length_cons, List.length_cons, ih]
      · rw [if_neg hp, if_neg hp, ih]

theorem downloaded_wf (o : Opts) (id : Nat) (u : Bool) (s : St) (h : s.WF) :
    (downloaded o id u s).WF := by
  unfold downloaded
  cases hf : find id s.queue with
  | none => exact h
  | some e =>
    dsimp only
    by_cases hp : e.post.isSome = true
    · rw [if_pos hp]; exact h
    rw [if_neg hp]
    obtain ⟨he, hi⟩ := find_mem hf
    have hnone : e.post = none := by
      cases hx : e.post with
      | none => rfl
      | some p => rw [hx] at hp; exact absurd rfl hp
    have hna : id ∉ s.active := by
      intro hm
      obtain ⟨e', he', h1, h2⟩ := h.there id hm
      have := uniq h.ids he' he (by rw [h1, hi])
      rw [this, hnone] at h2
      exact nomatch h2
    have hsub : ∀ x ∈ s.active, x ∈ (if u = true then s.active ++ [id] else s.active) := by
      intro x hx
      cases u
      · exact hx
      · exact List.mem_append_left _ hx
    refine ⟨?_, ?_, ?_, ?_, ?_⟩
    · show ((upd id _ s.queue).map (·.id)).Nodup
      rw [upd_ids (f := enterEnt o u) (fun _ => rfl)]
      exact h.ids
    · show (if u = true then s.active ++ [id] else s.active).Nodup
      cases u
      · exact h.act
      · rw [if_pos rfl, List.nodup_append]
        refine ⟨h.act, List.nodup_cons.mpr ⟨List.not_mem_nil, List.nodup_nil⟩, ?_⟩
        intro x hx y hy hxy
        rw [List.mem_singleton] at hy
        exact hna (by rw [← hy, ← hxy]; exact hx)
    · intro i hx
      have hx : i ∈ (if u = true then s.active ++ [id] else s.active) := hx
      have : i ∈ s.active ∨ i = id := by
        cases u
        · exact Or.inl hx
        · rw [if_pos rfl] at hx
          rcases List.mem_append.mp hx with hx | hx
          · exact Or.inl hx
          · exact Or.inr (List.mem_singleton.mp hx)
      rcases this with hx | hx
      · obtain ⟨e', he', h1, h2⟩ := h.there i hx
        refine ⟨_, mem_upd_of he', ?_, ?_⟩
        · split <;> exact h1
        · split
          · rfl
          · exact h2
      · refine ⟨_, mem_upd_of he, ?_, ?_⟩
        · rw [if_pos hi, hx]; exact hi
        · rw [if_pos hi]; rfl
    · intro e' he' hb
      obtain ⟨x, hx, hc⟩ := mem_upd he'
      show e'.id ∈ (if u = true then s.active ++ [id] else s.active)
      rcases hc with ⟨hxi, rfl⟩ | ⟨-, rfl⟩
      · rcases hb with hb | ⟨p, hp', hw⟩
        · exact hsub _ (h.busy x hx (Or.inl hb))
        · injection hp' with hp'
          rw [← hp'] at hw
          have hw : u = true := hw
          rw [if_pos hw]
          exact List.mem_append_right _ (List.mem_singleton.mpr hxi)
      · exact hsub _ (h.busy _ hx hb)
    · show s.queued + 1 = _
      rw [upd_enter_count (f := enterEnt o u) h.ids (fun _ => rfl) ⟨e, he, hi, hnone⟩, h.count]
      rfl

/-- Every event which is safe leaves the queue consistent, and nothing breaks. -/
theorem step_wf (c : Cfg) (s : St) (ev : Ev) (h : s.WF) (hs : SafeEv s ev) :
    ∃ s', step c s ev = some s' ∧ s'.WF := by
  cases ev with
  | added e =>
    refine ⟨_, rfl, ?_⟩
    by_cases hc : e.post = none ∧ e.thread = false ∧ find e.id s.queue = none
    · rw [if_pos hc]
      have hnew : ∀ x ∈ s.queue, x.id ≠ e.id := by
        intro x hx hxe
        exact absurd (beq_iff_eq.mpr hxe) (List.find?_eq_none.mp hc.2.2 x hx)
      refine ⟨?_, h.act, ?_, ?_, ?_⟩
      · show ((s.queue ++ [e]).map (·.id)).Nodup
        rw [List.map_append, List.nodup_append]
        refine ⟨h.ids, List.nodup_cons.mpr ⟨List.not_mem_nil, List.nodup_nil⟩, ?_⟩
        intro x hx y hy hxy
        obtain ⟨z, hz, hzx⟩ := List.mem_map.mp hx
        have hy : y = e.id := List.mem_singleton.mp hy
        exact hnew z hz (by rw [hzx, hxy, hy])
      · intro i hi
        obtain ⟨x, hx, h1, h2⟩ := h.there i hi
        exact ⟨x, List.mem_append_left _ hx, h1, h2⟩
      · intro x hx hb
        rcases List.mem_append.mp hx with hx | hx
        · exact h.busy x hx hb
        · rw [List.mem_singleton] at hx
          subst hx
          rcases hb with hb | ⟨p, hp, -⟩
          · rw [hc.2.1] at hb; exact nomatch hb
          · rw [hc.1] at hp; exact nomatch hp
      · show s.queued = ((s.queue ++ [e]).filter (·.post.isSome)).length
        rw [List.filter_append, List.length_append, h.count]
        have : [e].filter (·.post.isSome) = [] := by
          rw [List.filter_cons, if_neg (by rw [hc.1]; exact nofun)]
          rfl
        rw [this]
        rfl
    · rw [if_neg hc]; exact h
  | removed id =>
    refine ⟨_, rfl, ?_, h.act, ?_, ?_, ?_⟩
    · exact List.Sublist.nodup (List.filter_sublist.map _) h.ids
    · intro i hi
      obtain ⟨x, hx, h1, h2⟩ := h.there i hi
      refine ⟨x, List.mem_filter.mpr ⟨hx, ?_⟩, h1, h2⟩
      cases hp : x.post with
      | none => rw [hp] at h2; exact nomatch h2
      | some p => simp
    · intro x hx hb
      exact h.busy x (List.mem_filter.mp hx).1 hb
    · show s.queued = _
      rw [h.count, List.filter_filter]
      congr 2
      refine List.filter_congr (fun x _ => ?_)
      cases x.post <;> simp
  | changed id prio force script direct complete nzb =>
    exact ⟨_, rfl, wf_upd (f := changeEnt prio force script direct complete nzb) h
      ⟨fun _ => rfl, fun _ => rfl, fun _ hb => Or.inl hb⟩ id⟩
  | downloaded id u => exact ⟨_, rfl, downloaded_wf c.opts id u s h⟩
  | proceeds id st => exact ⟨_, rfl, wf_upd h (mild_proceeds _ st) id⟩
  | stageDone id w => exact ⟨_, rfl, wf_upd h (mild_stageDone _ c.opts w) id⟩
  | threadEnd id => exact ⟨_, rfl, wf_upd h (mild_threadEnd _) id⟩
  | directDone id => exact ⟨_, rfl, wf_upd h (mild_directDone _) id⟩
  | pause b => exact ⟨_, rfl, h⟩
  | delete id =>
    unfold step postDelete
    dsimp only
    cases hf : find id s.queue with
    | none => exact ⟨_, rfl, h⟩
    | some e =>
      dsimp only
      cases hp : e.post with
      | none => exact ⟨_, rfl, h⟩
      | some p =>
        dsimp only
        by_cases hw : p.working = true
        · rw [if_pos hw]
          exact ⟨_, rfl, wf_upd (f := cancelEnt) h mild_cancel id⟩
        · rw [if_neg hw]
          rcases hs e hf p hp with hs | hs
          · exact absurd hs hw
          have hnc : (s.active.contains id && e.complete && !c.keepHistory) = true → False := by
            intro hx
            simp only [Bool.and_eq_true] at hx
            exact hs (List.contains_iff_mem.mp hx.1.1)
          rw [if_neg hnc]
          obtain ⟨he, hi⟩ := find_mem hf
          exact ⟨_, rfl, wf_cancel h hs ⟨e, he, hi, by rw [hp]; rfl⟩⟩
  | check f =>
    obtain ⟨b, s', h1, h2⟩ := check_wf c f s h
    refine ⟨s', ?_, h2⟩
    show (check c f s).map (·.2) = some s'
    rw [h1]
    rfl

end Verif.PostQueue
