import Verif.PostQueueLemmas
/-!
# The queue of post-processing: consistency, limits, order, pause

`run c evs s` are the events `evs` in any order, beginning with the queue `s`; the result `none`
stands for the use of an invalid pointer or for a second thread for the same download
(`Verif.PostQueue`).
-/
namespace Verif.PostQueue
open Verif.PostJob

/-- The queue after the start of the program (`SanitisePostQueue`, PrePostProcessor.cpp:187-211):
nothing is running and the jobs are counted. -/
structure Start (s : St) : Prop where
  ids : (s.queue.map (·.id)).Nodup
  active : s.active = []
  idle : ∀ e ∈ s.queue, e.thread = false ∧ ∀ p, e.post = some p → p.working = false
  count : s.queued = (s.queue.filter (·.post.isSome)).length

theorem start_wf {s : St} (h : Start s) : s.WF := by
  refine ⟨h.ids, by rw [h.active]; exact List.nodup_nil, ?_, ?_, h.count⟩
  · intro id hi; rw [h.active] at hi; exact nomatch hi
  · intro e he hb
    obtain ⟨h1, h2⟩ := h.idle e he
    rcases hb with hb | ⟨p, hp, hw⟩
    · rw [h1] at hb; exact nomatch hb
    · rw [h2 p hp] at hw; exact nomatch hw

/-- The user deletes post-jobs only while their stage is running or while they are waiting for the
next stage, not in the short time between the end of a stage and the next look at the queue. -/
def Safe (c : Cfg) : List Ev → St → Prop
  | [], _ => True
  | ev :: r, s => SafeEv s ev ∧ ∀ s', step c s ev = some s' → Safe c r s'

theorem run_wf (c : Cfg) : ∀ (evs : List Ev) (s : St), s.WF → Safe c evs s →
    ∃ s', run c evs s = some s' ∧ s'.WF
  | [], s, h, _ => ⟨s, rfl, h⟩
  | ev :: r, s, h, hs => by
    obtain ⟨s1, h1, w1⟩ := step_wf c s ev h hs.1
    obtain ⟨s2, h2, w2⟩ := run_wf c r s1 w1 (hs.2 s1 h1)
    refine ⟨s2, ?_, w2⟩
    unfold run
    rw [h1]
    exact h2

/-- **The queue of post-processing stays consistent.** (Partial: deletions in the moment between two
stages are excluded, see `delete_between_stages_breaks`.) Whatever happens, in any order: no invalid
pointer is used, no download gets a second thread; every active job is in the queue, in
post-processing, and active only once; a download for which a stage, a thread or direct unpack is
running is active; and the number of jobs, by which the post-processor decides whether it has
anything to do, is the number of downloads in post-processing. -/
theorem post_queue_consistent_partial (c : Cfg) (s : St) (h : Start s) (evs : List Ev)
    (hs : Safe c evs s) :
    ∃ s', run c evs s = some s' ∧ s'.active.Nodup ∧ (s'.queue.map (·.id)).Nodup ∧
      (∀ id ∈ s'.active, ∃ e ∈ s'.queue, e.id = id ∧ e.post.isSome = true) ∧
      (∀ e ∈ s'.queue, (e.thread = true ∨ ∃ p, e.post = some p ∧ p.working = true) →
        e.id ∈ s'.active) ∧
      s'.queued = (s'.queue.filter (·.post.isSome)).length := by
  obtain ⟨s', h1, w⟩ := run_wf c evs s (start_wf h) hs
  exact ⟨s', h1, w.act, w.ids, w.there, w.busy, w.count⟩

/-! ## Deleting a post-job between two stages -/

theorem postOf_upd_none {id x : Nat} {f : Ent → Ent} {q : List Ent} (hf : Mild [] f)
    (h : postOf id q = none) : postOf id (upd x f q) = none := by
  unfold postOf find upd at *
  induction q with
  | nil => rfl
  | cons e q ih =>
    rw [List.map_cons, List.find?_cons]
    rw [List.find?_cons] at h
    have hid : ((if e.id = x then f e else e).id == id) = (e.id == id) := by
      by_cases hx : e.id = x
      · rw [if_pos hx, hf.id]
      · rw [if_neg hx]
    rw [hid]
    cases he : (e.id == id) with
    | true =>
      rw [he] at h
      have h : e.post = none := h
      show (if e.id = x then f e else e).post = none
      by_cases hx : e.id = x
      · rw [if_pos hx]
        have := hf.post e
        rw [h] at this
        cases hp : (f e).post with
        | none => rfl
        | some p => rw [hp] at this; exact nomatch this
      · rw [if_neg hx]; exact h
    | false =>
      rw [he] at h
      exact ih h

theorem requestAll_none {o : Opts} {id : Nat} : ∀ (a : List Nat) (q : List Ent), id ∈ a →
    postOf id q = none → requestAll o a q = none
  | x :: a, q, hm, h => by
    unfold requestAll
    by_cases hx : x = id
    · subst hx; rw [h]
    · cases postOf x q with
      | none => rfl
      | some p =>
        exact requestAll_none a _ ((List.mem_cons.mp hm).resolve_left (fun h => hx h.symm))
          (postOf_upd_none (mild_req [] o) h)

theorem postOf_completeJob (id : Nat) (q : List Ent) : postOf id (completeJob id q) = none := by
  unfold postOf
  cases hf : find id (completeJob id q) with
  | none => rfl
  | some e' =>
    obtain ⟨h1, h2⟩ := find_mem hf
    obtain ⟨e, -, hc⟩ := mem_completeJob h1
    rcases hc with ⟨-, rfl⟩ | ⟨hne, rfl⟩
    · rfl
    · exact absurd h2 hne

/-- **Violation: deleting a post-job between two stages breaks the program.** If a post-job is
deleted after its stage has ended (or direct unpack has ended) and before the post-processor has
looked at it (it does so every 200 milliseconds, and not at all while post-processing is paused
temporarily), then its place in the list of active jobs stays: the next look at the queue uses a
null pointer or a deleted object, whatever the state of the queue is. -/
theorem delete_between_stages_breaks (c : Cfg) (s : St) (id fuel : Nat) (e : Ent) (p : Post)
    (hf : find id s.queue = some e) (hp : e.post = some p) (hw : p.working = false)
    (ha : id ∈ s.active) : run c [.delete id, .check fuel] s = none := by
  unfold run
  show (postDelete c id s).bind _ = none
  unfold postDelete
  rw [hf]
  dsimp only
  rw [hp]
  dsimp only
  rw [if_neg (by rw [hw]; exact nofun)]
  by_cases hx : (s.active.contains id && e.complete && !c.keepHistory) = true
  · rw [if_pos hx]; rfl
  · rw [if_neg hx]
    show (step c _ (.check fuel)).bind _ = none
    have : step c { s with queue := completeJob id s.queue, queued := s.queued - 1 } (.check fuel) =
        none := by
      show (check c fuel _).map _ = none
      unfold check
      dsimp only
      rw [requestAll_none s.active _ ha (postOf_completeJob id s.queue)]
      rfl
    rw [this]
    rfl

def sampleNzb : Nzb :=
  ⟨false, true, false, .none, .none, false, .none, .none, .none, .none,
    ⟨true, true, true, 0, false, 1000, 900, false⟩⟩

def sampleWork : Work :=
  ⟨false, false, false, false, none, none, false,
    ⟨false, false, false, false, false, false, false, false, false, false⟩, true, false, false,
    ⟨true, true, true, 0, false, 1000, 900, false⟩, 0⟩

def sampleCfg : Cfg := ⟨⟨.auto, true, true, true, true, true, false⟩, .balanced, true⟩

def sample : St := ⟨[⟨7, 0, false, false, false, true, sampleNzb, none, false⟩], [], 0, false⟩

theorem sample_start : Start sample :=
  ⟨by decide, rfl, by
    intro e he
    rw [List.mem_singleton.mp he]
    exact ⟨rfl, fun p hp => nomatch hp⟩, rfl⟩

/-- The state of the violation is reached by a download with default options after its first
stage. -/
theorem delete_between_stages_reachable :
    ∃ s e p, run sampleCfg [.downloaded 7 false, .check 10, .stageDone 7 sampleWork, .threadEnd 7]
      sample = some s ∧ find 7 s.queue = some e ∧ e.post = some p ∧ p.working = false ∧
      7 ∈ s.active := by
  have h : ((run sampleCfg [.downloaded 7 false, .check 10, .stageDone 7 sampleWork, .threadEnd 7]
      sample).any (fun s => (find 7 s.queue).any (fun e => e.post.any (fun p => !p.working)) &&
        s.active.contains 7)) = true := by decide +kernel
  cases h1 : run sampleCfg [.downloaded 7 false, .check 10, .stageDone 7 sampleWork, .threadEnd 7]
      sample with
  | none => rw [h1] at h; exact nomatch h
  | some s =>
    rw [h1] at h
    simp only [Option.any_some, Bool.and_eq_true] at h
    cases h2 : find 7 s.queue with
    | none => rw [h2] at h; exact nomatch h.1
    | some e =>
      rw [h2] at h
      simp only [Option.any_some] at h
      cases h3 : e.post with
      | none => rw [h3] at h; exact nomatch h.1
      | some p =>
        rw [h3] at h
        simp only [Option.any_some, Bool.not_eq_true'] at h
        exact ⟨s, e, p, rfl, h2, h3, h.1, List.contains_iff_mem.mp h.2⟩

/-! ## How many stages are running at the same time -/

/-- A stage of the given kind is running for the download. -/
def running (k : Stage → Bool) (e : Ent) : Bool :=
  e.thread && e.post.any (fun p => p.working && k p.stage)

/-- The number of running stages of a kind. -/
def count (k : Stage → Bool) (q : List Ent) : Nat := (q.filter (running k)).length

def anyStage : Stage → Bool := fun _ => true
def otherStage : Stage → Bool := fun s => !s.par

/-- The limits of the option PostStrategy: "sequential" - one job at a time; "balanced" - one
par-check and one other stage; "aggressive" - three jobs, one of them in par-check; "rocket" - six
jobs, two of them in par-check. -/
def Limits (s : Strategy) (q : List Ent) : Prop :=
  match s with
  | .sequential => count anyStage q ≤ 1
  | .balanced => count Stage.par q ≤ 1 ∧ count otherStage q ≤ 1
  | .aggressive => count Stage.par q ≤ 1 ∧ count anyStage q ≤ 3
  | .rocket => count Stage.par q ≤ 2 ∧ count anyStage q ≤ 6

/-- The kinds which matter do not tell the stages of par-checks from each other. -/
def Coarse (k : Stage → Bool) : Prop := ∀ a b : Stage, a.par = b.par → k a = k b

theorem coarse_any : Coarse anyStage := fun _ _ _ => rfl
theorem coarse_par : Coarse Stage.par := fun _ _ h => h
theorem coarse_other : Coarse otherStage := fun _ _ h => by unfold otherStage; rw [h]

theorem limits_mono {s : Strategy} {q q' : List Ent}
    (h : ∀ k, Coarse k → count k q' ≤ count k q) (hl : Limits s q) : Limits s q' := by
  have h1 := h _ coarse_any
  have h2 := h _ coarse_par
  have h3 := h _ coarse_other
  cases s with
  | sequential => exact Nat.le_trans h1 hl
  | balanced => exact ⟨Nat.le_trans h2 hl.1, Nat.le_trans h3 hl.2⟩
  | aggressive => exact ⟨Nat.le_trans h2 hl.1, Nat.le_trans h1 hl.2⟩
  | rocket => exact ⟨Nat.le_trans h2 hl.1, Nat.le_trans h1 hl.2⟩

theorem count_cons (k : Stage → Bool) (e : Ent) (q : List Ent) :
    count k (e :: q) = (if running k e = true then 1 else 0) + count k q := by
  unfold count
  rw [List.filter_cons]
  by_cases h : running k e = true
  · rw [if_pos h, if_pos h, List.length_cons, Nat.add_comm]
  · rw [if_neg h, if_neg h, Nat.zero_add]

theorem count_upd {k : Stage → Bool} {id : Nat} {f : Ent → Ent} : ∀ {q : List Ent},
    (∀ e ∈ q, e.id = id → running k (f e) = true → running k e = true) →
    count k (upd id f q) ≤ count k q
  | [], _ => Nat.le_refl _
  | e :: q, h => by
    have e1 : upd id f (e :: q) = (if e.id = id then f e else e) :: upd id f q := rfl
    rw [e1, count_cons, count_cons]
    have ih := count_upd (f := f) (fun x hx => h x (List.mem_cons_of_mem _ hx))
    by_cases hi : e.id = id
    · rw [if_pos hi]
      by_cases hr : running k (f e) = true
      · rw [if_pos hr, if_pos (h e (List.mem_cons_self ..) hi hr)]; omega
      · rw [if_neg hr]; omega
    · rw [if_neg hi]; omega

theorem count_upd_one {k : Stage → Bool} {f : Ent → Ent} {e0 : Ent} : ∀ {q : List Ent},
    (q.map (·.id)).Nodup → e0 ∈ q →
    count k (upd e0.id f q) ≤ count k q + (if running k (f e0) = true then 1 else 0)
  | e :: q, hn, he => by
    have e1 : upd e0.id f (e :: q) = (if e.id = e0.id then f e else e) :: upd e0.id f q := rfl
    rw [e1, count_cons, count_cons]
    rw [List.map_cons, List.nodup_cons] at hn
    by_cases hi : e.id = e0.id
    · have hx : e0 = e := by
        rcases List.mem_cons.mp he with he | he
        · exact he
        · exact absurd (by rw [hi]; exact List.mem_map_of_mem he) hn.1
      subst hx
      rw [if_pos rfl]
      have rest : count k (upd e0.id f q) ≤ count k q := by
        refine count_upd (fun x hx hxi => ?_)
        exact absurd (by rw [← hxi]; exact List.mem_map_of_mem hx) hn.1
      omega
    · rw [if_neg hi]
      have he' : e0 ∈ q := by
        rcases List.mem_cons.mp he with he | he
        · exact absurd (by rw [he]) hi
        · exact he
      have ih := count_upd_one (k := k) (f := f) hn.2 he'
      omega

theorem count_complete (k : Stage → Bool) (id : Nat) : ∀ (q : List Ent),
    count k (completeJob id q) ≤ count k q
  | [] => Nat.le_refl _
  | e :: q => by
    have ih := count_complete k id q
    have e1 : completeJob id (e :: q) = if e.id = id then (if e.complete then completeJob id q else
        { e with post := none, thread := false } :: completeJob id q) else e :: completeJob id q := by
      unfold completeJob
      rw [List.filterMap_cons]
      by_cases hi : e.id = id
      · rw [if_pos hi, if_pos hi]
        by_cases hc : e.complete = true
        · rw [if_pos hc, if_pos hc]
        · rw [if_neg hc, if_neg hc]
      · rw [if_neg hi, if_neg hi]
    rw [e1, count_cons]
    by_cases hi : e.id = id
    · rw [if_pos hi]
      by_cases hc : e.complete = true
      · rw [if_pos hc]; omega
      · rw [if_neg hc, count_cons, if_neg nofun]; omega
    · rw [if_neg hi, count_cons]; omega

theorem running_onPost {k : Stage → Bool} {f : Post → Post} {e : Ent}
    (hf : ∀ p, (f p).working = true → k (f p).stage = true → p.working = true ∧ k p.stage = true)
    (h : running k (onPost f e) = true) : running k e = true := by
  unfold running onPost at *
  dsimp only at h
  rw [Bool.and_eq_true] at h ⊢
  refine ⟨h.1, ?_⟩
  cases hp : e.post with
  | none => rw [hp] at h; exact nomatch h.2
  | some p =>
    rw [hp] at h
    have h2 : ((f p).working && k (f p).stage) = true := h.2
    rw [Bool.and_eq_true] at h2
    show (p.working && k p.stage) = true
    rw [Bool.and_eq_true]
    exact hf p h2.1 h2.2

theorem checkRequestPar_running (o : Opts) (j : Job)
    (h : (checkRequestPar o j).post.working = true) : checkRequestPar o j = j := by
  unfold checkRequestPar at h ⊢
  split
  · rename_i hc; rw [if_pos hc] at h; exact nomatch h
  · rename_i hc
    rw [if_neg hc] at h
    split
    · rename_i hd; rw [if_pos hd] at h; exact nomatch h
    · rfl

theorem running_req {k : Stage → Bool} {o : Opts} {e : Ent} (h : running k (reqEnt o e) = true) :
    running k e = true := by
  unfold reqEnt at h
  cases hp : e.post with
  | none => rw [hp] at h; exact h
  | some p =>
    rw [hp] at h
    unfold running at *
    rw [Bool.and_eq_true] at h ⊢
    have h2 : ((checkRequestPar o ⟨e.nzb, p⟩).post.working &&
      k (checkRequestPar o ⟨e.nzb, p⟩).post.stage) = true := h.2
    rw [Bool.and_eq_true] at h2
    rw [checkRequestPar_running o _ h2.1] at h2
    rw [hp]
    exact ⟨h.1, by show (p.working && k p.stage) = true; rw [Bool.and_eq_true]; exact h2⟩

theorem count_requestAll (k : Stage → Bool) (o : Opts) : ∀ (r : List Nat) (q q' : List Ent),
    requestAll o r q = some q' → count k q' ≤ count k q
  | [], q, q', h => by injection h with h; rw [h]; exact Nat.le_refl _
  | id :: r, q, q', h => by
    unfold requestAll at h
    cases hp : postOf id q with
    | none => rw [hp] at h; exact nomatch h
    | some p =>
      rw [hp] at h
      exact Nat.le_trans (count_requestAll k o r _ q' h) (count_upd (fun _ _ _ hr => running_req hr))

theorem count_requeue {k : Stage → Bool} {q : List Ent} {id : Nat} {e : Ent} {p : Post}
    (hn : (q.map (·.id)).Nodup) (he : e ∈ q) (hi : e.id = id) (hp : e.post = some p)
    (hw : p.working = false) : count k (upd id requeueEnt q) ≤ count k q := by
  refine count_upd (fun x hx hxi hr => ?_)
  have : x = e := uniq hn hx he (by rw [hxi, hi])
  subst this
  unfold running requeueEnt onPost at hr
  rw [hp, Bool.and_eq_true] at hr
  have h2 : (p.working && _) = true := hr.2
  rw [hw] at h2
  exact nomatch h2

theorem count_cleanupAll (k : Stage → Bool) : ∀ (r : List Nat) (q q' : List Ent) (n n' : Int)
    (a' : List Nat), (q.map (·.id)).Nodup → cleanupAll r q n = some (a', q', n') →
    count k q' ≤ count k q
  | [], q, q', n, n', a', _, h => by
    injection h with h
    injection h with _ h
    injection h with h _
    rw [h]; exact Nat.le_refl _
  | id :: r, q, q', n, n', a', hn, h => by
    unfold cleanupAll at h
    cases hf : find id q with
    | none => rw [hf] at h; exact nomatch h
    | some e =>
      rw [hf] at h
      dsimp only at h
      obtain ⟨he, hi⟩ := find_mem hf
      cases hp : e.post with
      | none => rw [hp] at h; exact nomatch h
      | some p =>
        rw [hp] at h
        dsimp only at h
        by_cases hc : p.working = false ∧ e.thread = false
        · rw [if_pos hc] at h
          by_cases hd : p.stage = .finished ∨ p.cancelled = true
          · rw [if_pos hd] at h
            exact Nat.le_trans (count_cleanupAll k r _ q' _ n' a'
              (List.Sublist.nodup (completeJob_ids id q) hn) h) (count_complete k id q)
          · rw [if_neg hd] at h
            exact Nat.le_trans (count_cleanupAll k r _ q' _ n' a'
              (by rw [upd_ids (f := requeueEnt) (fun _ => rfl)]; exact hn) h)
              (count_requeue hn he hi hp hc.1)
        · rw [if_neg hc] at h
          cases hr : cleanupAll r q n with
          | none => rw [hr] at h; exact nomatch h
          | some x =>
            obtain ⟨a1, q1, n1⟩ := x
            rw [hr] at h
            injection h with h
            injection h with _ h
            injection h with h h'
            subst h
            exact count_cleanupAll k r q _ n _ a1 hn hr

theorem stages_filter {q : List Ent} (k : Stage → Bool) : ∀ (a : List Nat) (l : List Stage),
    stages q a = some l →
    (a.filter (fun id => (postOf id q).any (fun p => k p.stage))).length = (l.filter k).length
  | [], l, h => by injection h with h; rw [← h]; rfl
  | id :: a, l, h => by
    unfold stages at h
    cases hp : postOf id q with
    | none => rw [hp] at h; exact nomatch h
    | some p =>
      cases hs : stages q a with
      | none => rw [hp, hs] at h; exact nomatch h
      | some l' =>
        rw [hp, hs] at h
        injection h with h
        subst h
        have ih := stages_filter k a l' hs
        rw [List.filter_cons, List.filter_cons, hp]
        show (if k p.stage = true then _ else _ : List Nat).length = _
        by_cases hk : k p.stage = true
        · rw [if_pos hk, if_pos hk, List.length_cons, List.length_cons, ih]
        · rw [if_neg hk, if_neg hk, ih]

/-- The running stages are among the stages of active jobs. -/
theorem count_le_active {a : List Nat} {q : List Ent} {n : Int} (h : WF a q n) {l : List Stage}
    (hl : stages q a = some l) (k : Stage → Bool) : count k q ≤ (l.filter k).length := by
  rw [← stages_filter k a l hl]
  unfold count
  rw [← List.length_map (f := fun e : Ent => e.id)]
  refine List.Nodup.length_le_of_subset (List.Sublist.nodup (List.filter_sublist.map _) h.ids) ?_
  intro i hi
  obtain ⟨e, he, hei⟩ := List.mem_map.mp hi
  obtain ⟨he, hr⟩ := List.mem_filter.mp he
  unfold running at hr
  rw [Bool.and_eq_true] at hr
  rw [List.mem_filter]
  refine ⟨by rw [← hei]; exact h.busy e he (Or.inl hr.1), ?_⟩
  have hf := find_of_mem h.ids he
  unfold postOf
  rw [← hei, hf]
  show e.post.any (fun p => k p.stage) = true
  cases hp : e.post with
  | none => rw [hp] at hr; exact nomatch hr.2
  | some p =>
    rw [hp] at hr
    have h2 : (p.working && k p.stage) = true := hr.2
    rw [Bool.and_eq_true] at h2
    exact h2.2

/-- Without permission the job waits instead of a par-check. -/
theorem start_without_par (o : Opts) (j : Job) :
    startJob o false j = { j with post := { j.post with needPar := true } } ∨
    (startJob o false j = startJob o true j ∧ ¬ (j.nzb.par = .none ∧ j.nzb.deleted = false)) ∨
    startJob o false j = { j with nzb := { j.nzb with par := .skipped } } ∨
    startJob o false j = enterStage .parRenaming j := by
  unfold startJob
  dsimp only
  by_cases c1 : j.nzb.parRename = .none ∧ j.nzb.deleted = false ∧ o.parRename = true
  · rw [if_pos c1]; exact Or.inr (Or.inr (Or.inr rfl))
  rw [if_neg c1, if_neg c1]
  by_cases c2 : j.nzb.par = .none ∧ j.nzb.deleted = false
  · rw [if_pos c2]
    by_cases c3 : j.nzb.disk.pars = true
    · rw [if_pos c3]; exact Or.inl (if_pos rfl)
    · rw [if_neg c3]; exact Or.inr (Or.inr (Or.inl rfl))
  · rw [if_neg c2, if_neg c2]
    exact Or.inr (Or.inl ⟨rfl, c2⟩)

/-- Without permission no par-check is started. -/
theorem start_no_par {o : Opts} {j : Job} (hj : j.post.working = false)
    (h : (startJob o false j).post.working = true) : (startJob o false j).post.stage.par = false := by
  have idle : ∀ {k : Job}, startJob o false j = k → k.post.working = false → False := by
    intro k hk hw
    rw [hk, hw] at h
    exact nomatch h
  rcases start_without_par o j with h1 | ⟨h1, h2⟩ | h1 | h1
  · exact absurd hj (fun hj => idle h1 hj)
  · rcases start_cases o j with ⟨-, c⟩ | ⟨c1, c2, -⟩ | ⟨-, c⟩ | ⟨-, c⟩ | ⟨-, c⟩ | c | ⟨-, -, c⟩ |
      ⟨k, -, ⟨-, c⟩ | ⟨-, c⟩ | c⟩
    · rw [h1, c]; rfl
    · exact absurd ⟨c1, c2⟩ h2
    · exact absurd hj (fun hj => idle (h1.trans c) hj)
    · exact absurd hj (fun hj => idle (h1.trans c) hj)
    · exact absurd hj (fun hj => idle (h1.trans c) hj)
    · rw [h1, c]; rfl
    · rw [h1, c]; rfl
    · rw [h1, c]; rfl
    · rw [h1, c]; rfl
    · rw [h1, c]; rfl
  · exact absurd hj (fun hj => idle h1 hj)
  · rw [h1]; rfl

theorem running_start {k : Stage → Bool} {o : Opts} {b : Bool} {e : Ent} {p : Post}
    (hp : e.post = some p) (h : running k (startEnt o b e) = true) :
    (startJob o b ⟨e.nzb, p⟩).post.working = true ∧
    k (startJob o b ⟨e.nzb, p⟩).post.stage = true := by
  unfold running startEnt at h
  rw [hp] at h
  rw [Bool.and_eq_true] at h
  have h2 : ((startJob o b ⟨e.nzb, p⟩).post.working && k (startJob o b ⟨e.nzb, p⟩).post.stage) =
    true := h.2
  rw [Bool.and_eq_true] at h2
  exact h2

theorem filter_any (l : List Stage) : (l.filter anyStage).length = l.length := by
  have : l.filter anyStage = l := List.filter_eq_self.mpr (fun _ _ => rfl)
  rw [this]

/-- A job which may be started doesn't break the limits. -/
theorem limits_start {o : Opts} {st : Strategy} {a : List Nat} {q : List Ent} {n : Int}
    (h : WF a q n) {l : List Stage} (hl : stages q a = some l) (hm : (canRun st l).1 = true)
    {e : Ent} {p : Post} (he : e ∈ q) (hp : e.post = some p) (hw : p.working = false)
    (old : Limits st q) : Limits st (upd e.id (startEnt o (canRun st l).2) q) := by
  have one : ∀ k, count k (upd e.id (startEnt o (canRun st l).2) q) ≤ (l.filter k).length + 1 := by
    intro k
    have h1 := count_upd_one (k := k) (f := startEnt o (canRun st l).2) h.ids he
    have h2 := count_le_active h hl k
    split at h1 <;> omega
  have none_ : (canRun st l).2 = false →
      count Stage.par (upd e.id (startEnt o (canRun st l).2) q) ≤ count Stage.par q := by
    intro hb
    have h1 := count_upd_one (k := Stage.par) (f := startEnt o (canRun st l).2) h.ids he
    rw [if_neg (fun hr => by
      have hr := running_start hp hr
      rw [hb] at hr
      have := start_no_par (o := o) (j := ⟨e.nzb, p⟩) hw hr.1
      rw [this] at hr
      exact nomatch hr.2)] at h1
    omega
  have hany := one anyStage
  have hpar := one Stage.par
  have hoth := one otherStage
  rw [filter_any] at hany
  cases st with
  | sequential =>
    simp only [canRun, beq_iff_eq] at hm
    show count anyStage _ ≤ 1
    omega
  | balanced =>
    simp only [canRun, Bool.and_eq_true, beq_iff_eq, Bool.or_eq_true] at hm
    refine ⟨?_, ?_⟩
    · by_cases hx : (l.filter Stage.par).length = 0
      · omega
      · exact Nat.le_trans (none_ (beq_eq_false_iff_ne.mpr hx)) old.1
    · have : (l.filter otherStage).length = 0 := hm.1
      omega
  | aggressive =>
    simp only [canRun, decide_eq_true_eq] at hm
    refine ⟨?_, by omega⟩
    by_cases hx : (l.filter Stage.par).length < 1
    · omega
    · exact Nat.le_trans (none_ (decide_eq_false hx)) old.1
  | rocket =>
    simp only [canRun, decide_eq_true_eq] at hm
    refine ⟨?_, by omega⟩
    by_cases hx : (l.filter Stage.par).length < 2
    · omega
    · exact Nat.le_trans (none_ (decide_eq_false hx)) old.1

theorem limits_loop (c : Cfg) (paused : Bool) : ∀ (f : Nat) (a : List Nat) (q : List Ent) (n : Int),
    WF a q n → Limits c.strategy q → ∀ b a' q' n', loop c paused f a q n = some (b, a', q', n') →
    Limits c.strategy q'
  | 0, a, q, n, _, hl, b, a', q', n', h => by
    injection h with h
    injection h with _ h
    injection h with _ h
    injection h with h _
    rw [← h]; exact hl
  | f + 1, a, q, n, w, hl, b, a', q', n', h => by
    obtain ⟨l, hs⟩ := stages_some w a (fun _ hx => hx)
    unfold loop at h
    rw [hs] at h
    dsimp only at h
    have stop : some (true, a, q, n) = some (b, a', q', n') → Limits c.strategy q' := by
      intro h
      injection h with h
      injection h with _ h
      injection h with _ h
      injection h with h _
      rw [← h]; exact hl
    by_cases hm : (canRun c.strategy l).1 = true
    · rw [if_pos hm] at h
      cases hp : pick paused (canRun c.strategy l).2 a q with
      | none => rw [hp] at h; exact stop h
      | some e =>
        obtain ⟨he, hel⟩ := pick_mem hp
        obtain ⟨p, h1, h2, -, -, -, -, h7, -⟩ := eligible_spec hel
        rw [hp] at h
        dsimp only at h
        rw [h1] at h
        dsimp only at h
        by_cases ht : e.thread = true
        · rw [if_pos ht] at h; exact nomatch h
        rw [if_neg ht] at h
        have hpush := wf_push w he h1 h7
        by_cases hq : p.stage = .queued ∧ (paused = false ∨ e.force = true)
        · rw [if_pos hq] at h
          have hmem : e.id ∈ a ++ [e.id] := List.mem_append_right _ (List.mem_cons_self ..)
          have w0 := wf_start hpush hmem c.opts (canRun c.strategy l).2
          have l0 := limits_start (o := c.opts) w hs hm he h1 h2 hl
          obtain ⟨q1, hq1, w1⟩ := requestAll_wf c.opts (a ++ [e.id]) _ (fun _ hx => hx) w0
          rw [hq1] at h
          dsimp only at h
          obtain ⟨a2, q2, n2, h3, w2⟩ := cleanupAll_wf (a ++ [e.id]) [] q1 n w1
          rw [h3] at h
          dsimp only at h
          refine limits_loop c paused f a2 q2 n2 w2 ?_ b a' q' n' h
          refine limits_mono (fun k _ => ?_) l0
          exact Nat.le_trans (count_cleanupAll k _ q1 q2 n n2 a2 w1.ids h3)
            (count_requestAll k c.opts _ _ q1 hq1)
        · rw [if_neg hq] at h
          exact limits_loop c paused f _ q n hpush hl b a' q' n' h
    · rw [if_neg hm] at h
      exact stop h

theorem finish_working (o : Opts) (w : Work) (j : Job) (h : (finish o w j).post.working = true) :
    finish o w j = j := by
  unfold finish at h ⊢
  cases hs : j.post.stage <;> rw [hs] at h <;> first | rfl | exact nomatch h

theorem limits_step (c : Cfg) (s s' : St) (ev : Ev) (w : s.WF) (hl : Limits c.strategy s.queue)
    (h : step c s ev = some s') : Limits c.strategy s'.queue := by
  have upd_ : ∀ {id : Nat} {f : Ent → Ent} {s' : St},
      (∀ k, Coarse k → ∀ e ∈ s.queue, e.id = id → running k (f e) = true → running k e = true) →
      some { s with queue := upd id f s.queue } = some s' → Limits c.strategy s'.queue := by
    intro id f s' hf hs
    injection hs with hs
    rw [← hs]
    exact limits_mono (fun k hk => count_upd (hf k hk)) hl
  cases ev with
  | added e =>
    injection h with h
    rw [← h]
    by_cases hc : e.post = none ∧ e.thread = false ∧ find e.id s.queue = none
    · rw [if_pos hc]
      refine limits_mono (fun k _ => ?_) hl
      show count k (s.queue ++ [e]) ≤ _
      unfold count
      rw [List.filter_append, List.length_append, List.filter_cons, if_neg]
      · exact Nat.le_refl _
      · unfold running; rw [hc.2.1]; exact nofun
    · rw [if_neg hc]; exact hl
  | removed id =>
    injection h with h
    rw [← h]
    refine limits_mono (fun k _ => ?_) hl
    exact List.Sublist.length_le (List.filter_sublist.filter _)
  | changed id prio force script direct complete nzb =>
    exact upd_ (f := changeEnt prio force script direct complete nzb) (fun _ _ _ _ _ hr => hr) h
  | downloaded id u =>
    injection h with h
    rw [← h]
    unfold downloaded
    cases hf : find id s.queue with
    | none => exact hl
    | some e =>
      dsimp only
      by_cases hp : e.post.isSome = true
      · rw [if_pos hp]; exact hl
      · rw [if_neg hp]
        refine limits_mono (fun k _ => count_upd (fun x hx hxi hr => ?_)) hl
        obtain ⟨he, hi⟩ := find_mem hf
        have hxe : x = e := uniq w.ids hx he (by rw [hxi, hi])
        subst hxe
        -- a download without post-processing has no thread
        unfold running at hr
        rw [Bool.and_eq_true] at hr
        have hb := w.busy x hx (Or.inl hr.1)
        obtain ⟨y, hy, h1, h2⟩ := w.there _ hb
        rw [uniq w.ids hy hx h1] at h2
        exact absurd h2 hp
  | proceeds id st =>
    refine upd_ (f := proceedsEnt st) (fun k hk e _ _ hr => ?_) h
    unfold proceedsEnt at hr
    cases hp : e.post with
    | none => rw [hp] at hr; exact hr
    | some p =>
      rw [hp] at hr
      dsimp only at hr
      by_cases hc : (p.working && e.thread && p.stage.par && st.par) = true
      · rw [if_pos hc] at hr
        simp only [Bool.and_eq_true] at hc
        unfold running at hr ⊢
        rw [Bool.and_eq_true] at hr ⊢
        refine ⟨hr.1, ?_⟩
        have h2 : (p.working && k st) = true := hr.2
        rw [hp]
        show (p.working && k p.stage) = true
        rw [hk p.stage st (by rw [hc.1.2, hc.2])]
        exact h2
      · rw [if_neg hc] at hr; exact hr
  | stageDone id wk =>
    refine upd_ (f := stageDoneEnt c.opts wk) (fun k hk e _ _ hr => ?_) h
    unfold stageDoneEnt at hr
    cases hp : e.post with
    | none => rw [hp] at hr; exact hr
    | some p =>
      rw [hp] at hr
      dsimp only at hr
      by_cases hc : (p.working && e.thread) = true
      · rw [if_pos hc] at hr
        unfold running at hr ⊢
        rw [Bool.and_eq_true] at hr ⊢
        refine ⟨hr.1, ?_⟩
        have h2 : ((finish c.opts wk ⟨e.nzb, p⟩).post.working &&
          k (finish c.opts wk ⟨e.nzb, p⟩).post.stage) = true := hr.2
        rw [Bool.and_eq_true] at h2
        rw [finish_working _ _ _ h2.1] at h2
        rw [hp]
        show (p.working && k p.stage) = true
        rw [Bool.and_eq_true]
        exact h2
      · rw [if_neg hc] at hr; exact hr
  | threadEnd id =>
    refine upd_ (f := threadEndEnt) (fun k hk e _ _ hr => ?_) h
    unfold threadEndEnt at hr
    cases hp : e.post with
    | none => rw [hp] at hr; exact hr
    | some p =>
      rw [hp] at hr
      dsimp only at hr
      by_cases hc : p.working = true
      · rw [if_pos hc] at hr; exact hr
      · rw [if_neg hc] at hr
        unfold running at hr
        exact nomatch hr
  | directDone id =>
    refine upd_ (f := directDoneEnt) (fun k hk e _ _ hr => ?_) h
    unfold directDoneEnt at hr
    by_cases hc : e.thread = true
    · rw [if_pos hc] at hr; exact hr
    · rw [if_neg hc] at hr
      exact running_onPost (f := fun p => { p with working := false })
        (fun p hw _ => Bool.noConfusion hw) hr
  | pause b =>
    injection h with h
    rw [← h]; exact hl
  | delete id =>
    have h : postDelete c id s = some s' := h
    unfold postDelete at h
    cases hf : find id s.queue with
    | none => rw [hf] at h; injection h with h; rw [← h]; exact hl
    | some e =>
      rw [hf] at h
      dsimp only at h
      cases hp : e.post with
      | none => rw [hp] at h; injection h with h; rw [← h]; exact hl
      | some p =>
        rw [hp] at h
        dsimp only at h
        by_cases hw : p.working = true
        · rw [if_pos hw] at h
          exact upd_ (f := cancelEnt) (fun k _ e _ _ hr =>
            running_onPost (f := fun p => { p with cancelled := true })
              (fun p h1 h2 => ⟨h1, h2⟩) hr) h
        · rw [if_neg hw] at h
          by_cases hx : (s.active.contains id && e.complete && !c.keepHistory) = true
          · rw [if_pos hx] at h; exact nomatch h
          · rw [if_neg hx] at h
            injection h with h
            rw [← h]
            exact limits_mono (fun k _ => count_complete k id _) hl
  | check f =>
    have h : (check c f s).map (·.2) = some s' := h
    unfold check at h
    obtain ⟨q1, h1, w1⟩ := requestAll_wf c.opts s.active s.queue (fun _ hx => hx) w
    obtain ⟨a2, q2, n2, h2, w2⟩ := cleanupAll_wf s.active [] q1 s.queued w1
    obtain ⟨b, a', q', n', h3, w3⟩ := loop_wf c s.paused f a2 q2 n2 w2
    rw [h1] at h
    dsimp only at h
    rw [h2] at h
    dsimp only at h
    rw [h3] at h
    injection h with h
    rw [← h]
    refine limits_loop c s.paused f a2 q2 n2 w2 ?_ b a' q' n' h3
    refine limits_mono (fun k _ => ?_) hl
    exact Nat.le_trans (count_cleanupAll k _ q1 q2 _ n2 a2 w1.ids h2)
      (count_requestAll k c.opts _ _ q1 h1)

theorem limits_run (c : Cfg) : ∀ (evs : List Ev) (s s' : St), s.WF → Safe c evs s →
    Limits c.strategy s.queue → run c evs s = some s' → Limits c.strategy s'.queue
  | [], s, s', _, _, hl, h => by injection h with h; rw [← h]; exact hl
  | ev :: r, s, s', w, hs, hl, h => by
    obtain ⟨s1, h1, w1⟩ := step_wf c s ev w hs.1
    unfold run at h
    rw [h1] at h
    exact limits_run c r s1 s' w1 (hs.2 s1 h1) (limits_step c s s1 ev w hl h1) h

/-- **Never more stages than the strategy allows.** After whatever has happened, in any order, the
number of stages which are running (threads working on downloads), and the number of par-checks
among them, is within the limits of the option PostStrategy. (Partial: as long as no job is deleted
between two stages, which breaks the program.) -/
theorem strategy_limits_partial (c : Cfg) (s : St) (h : Start s) (evs : List Ev) (hs : Safe c evs s) :
    ∃ s', run c evs s = some s' ∧ Limits c.strategy s'.queue := by
  obtain ⟨s', h1, -⟩ := run_wf c evs s (start_wf h) hs
  refine ⟨s', h1, limits_run c evs s s' (start_wf h) hs ?_ h1⟩
  have zero : ∀ k, count k s.queue = 0 := by
    intro k
    unfold count
    rw [List.length_eq_zero_iff, List.filter_eq_nil_iff]
    intro e he hr
    unfold running at hr
    rw [(h.idle e he).1] at hr
    exact nomatch hr
  unfold Limits
  cases c.strategy <;> simp only [zero] <;> decide

/-! ### The hypotheses are met -/

/-- The check of `Safe` for given events. -/
def safeB (c : Cfg) : List Ev → St → Bool
  | [], _ => true
  | ev :: r, s =>
    (match ev with
      | .delete id => match find id s.queue with
        | none => true
        | some e => match e.post with
          | none => true
          | some p => p.working || !s.active.contains id
      | _ => true) &&
    (match step c s ev with
      | none => true
      | some s' => safeB c r s')

theorem safeB_safe (c : Cfg) : ∀ (evs : List Ev) (s : St), safeB c evs s = true → Safe c evs s
  | [], _, _ => trivial
  | ev :: r, s, h => by
    unfold safeB at h
    rw [Bool.and_eq_true] at h
    refine ⟨?_, fun s' hs => ?_⟩
    · cases ev with
      | delete id =>
        intro e hf p hp
        have h1 := h.1
        dsimp only at h1
        rw [hf] at h1
        dsimp only at h1
        rw [hp] at h1
        dsimp only at h1
        rw [Bool.or_eq_true] at h1
        rcases h1 with h1 | h1
        · exact Or.inl h1
        · refine Or.inr (fun hm => ?_)
          rw [List.contains_iff_mem.mpr hm] at h1
          exact nomatch h1
      | _ => exact trivial
    · have h2 := h.2
      rw [hs] at h2
      exact safeB_safe c r s' h2

/-- Eight completed downloads, three of them with par2-files. -/
def eight : St :=
  ⟨(List.range 8).map (fun i => ⟨i, i, false, false, false, true,
      { sampleNzb with disk := { sampleNzb.disk with pars := decide (5 ≤ i) } }, none, false⟩), [], 0,
    false⟩

theorem eight_start : Start eight := by
  refine ⟨by decide, rfl, ?_, rfl⟩
  intro e he
  obtain ⟨i, -, rfl⟩ := List.mem_map.mp he
  exact ⟨rfl, fun p hp => nomatch hp⟩

def rocketCfg : Cfg := ⟨⟨.force, false, true, true, true, true, false⟩, .rocket, true⟩

def eightEvs : List Ev :=
  (List.range 8).map (fun i => .downloaded i false) ++
    [.check 100, .stageDone 6 sampleWork, .threadEnd 6, .check 100, .delete 7, .delete 0,
      .stageDone 4 sampleWork, .threadEnd 4, .check 100]

example : Safe rocketCfg eightEvs eight := safeB_safe _ _ _ (by decide +kernel)

/-- The limit of six is reached. -/
example : (run rocketCfg eightEvs eight).any (fun s => count anyStage s.queue == 6 &&
    count Stage.par s.queue == 2 && s.queued == 7) = true := by decide +kernel

end Verif.PostQueue
