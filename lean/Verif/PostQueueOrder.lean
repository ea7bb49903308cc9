import Verif.PostQueueProps
/-!
# The queue of post-processing: which job is next, pause, and the end of `CheckPostQueue`
-/
namespace Verif.PostQueue
open Verif.PostJob

/-! ## Which job is next -/

/-- A stage may be started for the download now: it is downloaded completely and waits for
post-processing, no stage is running for it, no queue-script and no direct unpack is running for it,
post-processing isn't paused (or the download has force-priority), and it doesn't wait for a
par-check which isn't allowed at the moment. -/
structure Waiting (paused allowPar : Bool) (active : List Nat) (e : Ent) : Prop where
  post : ∃ p, e.post = some p ∧ p.working = false ∧ (allowPar = false → p.needPar = false)
  script : e.script = false
  direct : e.direct = false
  pause : paused = true → e.force = true
  idle : e.id ∉ active
  complete : e.complete = true

theorem eligible_iff (paused allow : Bool) (a : List Nat) (e : Ent) :
    eligible paused allow a e = true ↔ Waiting paused allow a e := by
  constructor
  · intro h
    obtain ⟨p, h1, h2, h3, h4, h5, h6, h7, h8⟩ := eligible_spec h
    refine ⟨⟨p, h1, h2, ?_⟩, h3, h4, ?_, h7, h8⟩
    · intro ha
      rcases h6 with h6 | h6
      · rw [ha] at h6; exact nomatch h6
      · exact h6
    · intro hp
      rcases h5 with h5 | h5
      · rw [hp] at h5; exact nomatch h5
      · exact h5
  · intro h
    obtain ⟨p, h1, h2, h3⟩ := h.post
    unfold eligible
    rw [h1]
    have hi : a.contains e.id = false := by
      cases hc : a.contains e.id with
      | false => rfl
      | true => exact absurd (List.contains_iff_mem.mp hc) h.idle
    dsimp only
    rw [h2, h.script, h.direct, hi, h.complete]
    have hp := h.pause
    cases paused <;> cases allow <;> simp_all

theorem fold_better (ok : Ent → Bool) : ∀ (q : List Ent) (b : Ent),
    ∃ e, q.foldl (better ok) (some b) = some e ∧
      ((e = b ∧ ∀ x ∈ q, ok x = true → x.prio ≤ b.prio) ∨
       (b.prio < e.prio ∧ ∃ l r, q = l ++ e :: r ∧ ok e = true ∧
         (∀ x ∈ l, ok x = true → x.prio < e.prio) ∧ (∀ x ∈ r, ok x = true → x.prio ≤ e.prio)))
  | [], b => ⟨b, rfl, Or.inl ⟨rfl, fun _ h => nomatch h⟩⟩
  | x :: q, b => by
    by_cases hx : (ok x && decide (b.prio < x.prio)) = true
    · have hb : better ok (some b) x = some x := by unfold better; exact if_pos hx
      simp only [Bool.and_eq_true, decide_eq_true_eq] at hx
      obtain ⟨e, h1, h2⟩ := fold_better ok q x
      refine ⟨e, by rw [List.foldl_cons, hb]; exact h1, Or.inr ?_⟩
      rcases h2 with ⟨rfl, h2⟩ | ⟨h2, l, r, rfl, h3, h4, h5⟩
      · exact ⟨hx.2, [], q, rfl, hx.1, (fun _ h => nomatch h), h2⟩
      · refine ⟨by omega, x :: l, r, rfl, h3, ?_, h5⟩
        intro y hy hoy
        rcases List.mem_cons.mp hy with hy | hy
        · rw [hy]; exact h2
        · exact h4 y hy hoy
    · have hb : better ok (some b) x = some b := by unfold better; exact if_neg hx
      simp only [Bool.and_eq_true, decide_eq_true_eq] at hx
      have hx' : ok x = true → x.prio ≤ b.prio := fun ho => by
        have : ¬ b.prio < x.prio := fun h => hx ⟨ho, h⟩
        omega
      obtain ⟨e, h1, h2⟩ := fold_better ok q b
      refine ⟨e, by rw [List.foldl_cons, hb]; exact h1, ?_⟩
      rcases h2 with ⟨rfl, h2⟩ | ⟨h2, l, r, rfl, h3, h4, h5⟩
      · refine Or.inl ⟨rfl, ?_⟩
        intro y hy hoy
        rcases List.mem_cons.mp hy with hy | hy
        · rw [hy] at hoy ⊢; exact hx' hoy
        · exact h2 y hy hoy
      · refine Or.inr ⟨h2, x :: l, r, rfl, h3, ?_, h5⟩
        intro y hy hoy
        rcases List.mem_cons.mp hy with hy | hy
        · rw [hy] at hoy ⊢
          have := hx' hoy
          omega
        · exact h4 y hy hoy

theorem fold_none (ok : Ent → Bool) : ∀ (q : List Ent),
    (q.foldl (better ok) none = none ∧ ∀ x ∈ q, ok x = false) ∨
    ∃ e l r, q.foldl (better ok) none = some e ∧ q = l ++ e :: r ∧ ok e = true ∧
      (∀ x ∈ l, ok x = true → x.prio < e.prio) ∧ (∀ x ∈ r, ok x = true → x.prio ≤ e.prio)
  | [] => Or.inl ⟨rfl, fun _ h => nomatch h⟩
  | x :: q => by
    by_cases hx : ok x = true
    · have hb : better ok none x = some x := by unfold better; exact if_pos hx
      obtain ⟨e, h1, h2⟩ := fold_better ok q x
      refine Or.inr ?_
      rcases h2 with ⟨rfl, h2⟩ | ⟨h2, l, r, rfl, h3, h4, h5⟩
      · exact ⟨e, [], q, by rw [List.foldl_cons, hb]; exact h1, rfl, hx, (fun _ h => nomatch h), h2⟩
      · refine ⟨e, x :: l, r, by rw [List.foldl_cons, hb]; exact h1, rfl, h3, ?_, h5⟩
        intro y hy hoy
        rcases List.mem_cons.mp hy with hy | hy
        · rw [hy]; exact h2
        · exact h4 y hy hoy
    · have hb : better ok none x = none := by unfold better; exact if_neg hx
      have hx' : ok x = false := by cases h : ok x with
        | false => rfl
        | true => exact absurd h hx
      rcases fold_none ok q with ⟨h1, h2⟩ | ⟨e, l, r, h1, rfl, h3, h4, h5⟩
      · refine Or.inl ⟨by rw [List.foldl_cons, hb]; exact h1, ?_⟩
        intro y hy
        rcases List.mem_cons.mp hy with hy | hy
        · rw [hy]; exact hx'
        · exact h2 y hy
      · refine Or.inr ⟨e, x :: l, r, by rw [List.foldl_cons, hb]; exact h1, rfl, h3, ?_, h5⟩
        intro y hy hoy
        rcases List.mem_cons.mp hy with hy | hy
        · rw [hy, hx'] at hoy; exact nomatch hoy
        · exact h4 y hy hoy

/-- **The next job is the one with the highest priority, the first of them.** The job which is chosen
is waiting; every waiting download before it in the queue has a lower priority, and no waiting
download after it has a higher one. No job is chosen only if no download is waiting. -/
theorem next_has_highest_priority (paused allow : Bool) (active : List Nat) (q : List Ent) :
    (pick paused allow active q = none ∧ ∀ e ∈ q, ¬ Waiting paused allow active e) ∨
    ∃ e l r, pick paused allow active q = some e ∧ q = l ++ e :: r ∧ Waiting paused allow active e ∧
      (∀ x ∈ l, Waiting paused allow active x → x.prio < e.prio) ∧
      (∀ x ∈ r, Waiting paused allow active x → x.prio ≤ e.prio) := by
  rcases fold_none (eligible paused allow active) q with ⟨h1, h2⟩ | ⟨e, l, r, h1, h2, h3, h4, h5⟩
  · refine Or.inl ⟨h1, fun e he hw => ?_⟩
    rw [← eligible_iff, h2 e he] at hw
    exact nomatch hw
  · exact Or.inr ⟨e, l, r, h1, h2, (eligible_iff ..).mp h3,
      fun x hx hw => h4 x hx ((eligible_iff ..).mpr hw),
      fun x hx hw => h5 x hx ((eligible_iff ..).mpr hw)⟩

/-! ## Paused post-processing -/

/-- Every download in `q'` was in `q` with the same force-priority, and a stage which runs for it was
running in `q`, or the download has force-priority. -/
def Same (q q' : List Ent) : Prop := ∀ e' ∈ q', ∃ e ∈ q, e.id = e'.id ∧ e.force = e'.force ∧
  (running anyStage e' = true → e'.force = true ∨ running anyStage e = true)

theorem same_refl (q : List Ent) : Same q q := fun e he => ⟨e, he, rfl, rfl, Or.inr⟩

theorem same_trans {a b c : List Ent} (h1 : Same a b) (h2 : Same b c) : Same a c := by
  intro e he
  obtain ⟨x, hx, i1, f1, r1⟩ := h2 e he
  obtain ⟨y, hy, i2, f2, r2⟩ := h1 x hx
  refine ⟨y, hy, i2.trans i1, f2.trans f1, fun hr => ?_⟩
  rcases r1 hr with h | h
  · exact Or.inl h
  · rcases r2 h with h | h
    · exact Or.inl (by rw [← f1]; exact h)
    · exact Or.inr h

theorem same_upd {q : List Ent} {id : Nat} {f : Ent → Ent} (hid : ∀ e, (f e).id = e.id)
    (hfo : ∀ e, (f e).force = e.force)
    (hf : ∀ e ∈ q, e.id = id → running anyStage (f e) = true → e.force = true ∨
      running anyStage e = true) : Same q (upd id f q) := by
  intro e' he'
  obtain ⟨e, he, ⟨hi, rfl⟩ | ⟨-, rfl⟩⟩ := mem_upd he'
  · exact ⟨e, he, (hid e).symm, (hfo e).symm, fun hr => by rw [hfo]; exact hf e he hi hr⟩
  · exact ⟨_, he, rfl, rfl, Or.inr⟩

theorem same_complete (id : Nat) (q : List Ent) : Same q (completeJob id q) := by
  intro e' he'
  obtain ⟨e, he, ⟨-, rfl⟩ | ⟨-, rfl⟩⟩ := mem_completeJob he'
  · exact ⟨e, he, rfl, rfl, fun h => nomatch h⟩
  · exact ⟨_, he, rfl, rfl, Or.inr⟩

theorem req_force (o : Opts) (e : Ent) : (reqEnt o e).force = e.force := by
  unfold reqEnt
  cases e.post <;> rfl

theorem req_id (o : Opts) (e : Ent) : (reqEnt o e).id = e.id := by
  unfold reqEnt
  cases e.post <;> rfl

theorem same_requestAll (o : Opts) : ∀ (r : List Nat) (q q' : List Ent),
    requestAll o r q = some q' → Same q q'
  | [], q, q', h => by injection h with h; rw [h]; exact same_refl _
  | id :: r, q, q', h => by
    unfold requestAll at h
    cases hp : postOf id q with
    | none => rw [hp] at h; exact nomatch h
    | some p =>
      rw [hp] at h
      exact same_trans (same_upd (req_id o) (req_force o) (fun _ _ _ hr => Or.inr (running_req hr)))
        (same_requestAll o r _ q' h)

theorem same_cleanupAll : ∀ (r : List Nat) (q q' : List Ent) (n n' : Int)
    (a' : List Nat), (q.map (·.id)).Nodup → cleanupAll r q n = some (a', q', n') → Same q q'
  | [], q, q', n, n', a', _, h => by
    injection h with h
    injection h with _ h
    injection h with h _
    rw [h]; exact same_refl _
  | id :: r, q, q', n, n', a', hn, h => by
    unfold cleanupAll at h
    cases hf : find id q with
    | none => rw [hf] at h; exact nomatch h
    | some e =>
      rw [hf] at h
      dsimp only at h
      obtain ⟨he, hi⟩ := find_mem hf
      cases hp : e.post with
      | none => rw [hp] at h; exact nomatch h
      | some p =>
        rw [hp] at h
        dsimp only at h
        by_cases hc : p.working = false ∧ e.thread = false
        · rw [if_pos hc] at h
          by_cases hd : p.stage = .finished ∨ p.cancelled = true
          · rw [if_pos hd] at h
            exact same_trans (same_complete id q) (same_cleanupAll r _ q' _ n' a'
              (List.Sublist.nodup (completeJob_ids id q) hn) h)
          · rw [if_neg hd] at h
            refine same_trans (same_upd (f := requeueEnt) (fun _ => rfl) (fun _ => rfl)
              (fun x hx hxi hr => ?_)) (same_cleanupAll r _ q' _ n' a'
              (by rw [upd_ids (f := requeueEnt) (fun _ => rfl)]; exact hn) h)
            exact Or.inr (running_onPost (f := fun p => { p with stage := .queued })
              (fun p h1 h2 => ⟨h1, rfl⟩) hr)
        · rw [if_neg hc] at h
          cases hr : cleanupAll r q n with
          | none => rw [hr] at h; exact nomatch h
          | some x =>
            obtain ⟨a1, q1, n1⟩ := x
            rw [hr] at h
            injection h with h
            injection h with _ h
            injection h with h h'
            subst h
            exact same_cleanupAll r q _ n _ a1 hn hr

theorem start_force (o : Opts) (b : Bool) (e : Ent) : (startEnt o b e).force = e.force := by
  unfold startEnt; cases e.post <;> rfl

theorem same_loop (c : Cfg) : ∀ (f : Nat) (a : List Nat) (q : List Ent) (n : Int),
    WF a q n → ∀ b a' q' n', loop c true f a q n = some (b, a', q', n') → Same q q'
  | 0, a, q, n, _, b, a', q', n', h => by
    injection h with h
    injection h with _ h
    injection h with _ h
    injection h with h _
    rw [← h]; exact same_refl _
  | f + 1, a, q, n, w, b, a', q', n', h => by
    obtain ⟨l, hs⟩ := stages_some w a (fun _ hx => hx)
    unfold loop at h
    rw [hs] at h
    dsimp only at h
    have stop : some (true, a, q, n) = some (b, a', q', n') → Same q q' := by
      intro h
      injection h with h
      injection h with _ h
      injection h with _ h
      injection h with h _
      rw [← h]; exact same_refl _
    by_cases hm : (canRun c.strategy l).1 = true
    · rw [if_pos hm] at h
      cases hp : pick true (canRun c.strategy l).2 a q with
      | none => rw [hp] at h; exact stop h
      | some e =>
        obtain ⟨he, hel⟩ := pick_mem hp
        obtain ⟨p, h1, h2, -, -, h5, -, h7, -⟩ := eligible_spec hel
        rw [hp] at h
        dsimp only at h
        rw [h1] at h
        dsimp only at h
        by_cases ht : e.thread = true
        · rw [if_pos ht] at h; exact nomatch h
        rw [if_neg ht] at h
        have hpush := wf_push w he h1 h7
        by_cases hq : p.stage = .queued ∧ (true = false ∨ e.force = true)
        · rw [if_pos hq] at h
          have hmem : e.id ∈ a ++ [e.id] := List.mem_append_right _ (List.mem_cons_self ..)
          have w0 := wf_start hpush hmem c.opts (canRun c.strategy l).2
          obtain ⟨q1, hq1, w1⟩ := requestAll_wf c.opts (a ++ [e.id]) _ (fun _ hx => hx) w0
          rw [hq1] at h
          dsimp only at h
          obtain ⟨a2, q2, n2, h3, w2⟩ := cleanupAll_wf (a ++ [e.id]) [] q1 n w1
          rw [h3] at h
          dsimp only at h
          have s0 : Same q (upd e.id (startEnt c.opts (canRun c.strategy l).2) q) := by
            refine same_upd (start_id _ _) (start_force _ _) (fun x hx hxi _ => ?_)
            rw [uniq w.ids hx he hxi]
            exact Or.inl (hq.2.resolve_left nofun)
          exact same_trans s0 (same_trans (same_requestAll _ _ _ _ hq1)
            (same_trans (same_cleanupAll _ _ _ _ _ _ w1.ids h3)
              (same_loop c f a2 q2 n2 w2 b a' q' n' h)))
        · rw [if_neg hq] at h
          exact same_loop c f _ q n hpush b a' q' n' h
    · rw [if_neg hm] at h
      exact stop h

/-- (Partial: for histories without a deletion between two stages.) **While post-processing is paused
no stage is started, except for downloads with
force-priority.** -/
theorem paused_starts_only_forced_partial (c : Cfg) (s0 s : St) (h0 : Start s0) (evs : List Ev)
    (hs : Safe c evs s0) (hrun : run c evs s0 = some s) (hp : s.paused = true) (fuel : Nat)
    (b : Bool) (s' : St) (h : check c fuel s = some (b, s')) (e' : Ent) (he : e' ∈ s'.queue)
    (hr : running anyStage e' = true) :
    e'.force = true ∨ ∃ e ∈ s.queue, e.id = e'.id ∧ running anyStage e = true := by
  have w : s.WF := by
    obtain ⟨s1, h1, w⟩ := run_wf c evs s0 (start_wf h0) hs
    rw [hrun] at h1
    injection h1 with h1
    rw [h1]; exact w
  unfold check at h
  obtain ⟨q1, h1, w1⟩ := requestAll_wf c.opts s.active s.queue (fun _ hx => hx) w
  obtain ⟨a2, q2, n2, h2, w2⟩ := cleanupAll_wf s.active [] q1 s.queued w1
  obtain ⟨b', a', q', n', h3, w3⟩ := loop_wf c s.paused fuel a2 q2 n2 w2
  rw [h1] at h
  dsimp only at h
  rw [h2] at h
  dsimp only at h
  rw [h3] at h
  injection h with h
  injection h with _ h
  rw [← h] at he
  rw [hp] at h3
  have := same_trans (same_requestAll _ _ _ _ h1) (same_trans
    (same_cleanupAll _ _ _ _ _ _ w1.ids h2) (same_loop c fuel a2 q2 n2 w2 _ _ _ _ h3))
  obtain ⟨e, hx, hi, -, hs⟩ := this e' he
  rcases hs hr with hs | hs
  · exact Or.inl hs
  · exact Or.inr ⟨e, hx, hi, hs⟩

/-- Paused, one of eight downloads has force-priority: a stage is started only for it. -/
example : ((run rocketCfg ((List.range 8).map (fun i => Ev.downloaded i false) ++
    [.pause true, .changed 3 900 true false false true sampleNzb]) eight).bind
      (check rocketCfg 200)).any (fun s => s.1 && (s.2.queue.filter (running anyStage)).map (·.id) ==
        [3]) = true := by decide +kernel

/-! ## The end of the loop -/

/-- The stage of the job doesn't run, and no thread of it. -/
def idle (e : Ent) : Bool := !e.thread && e.post.any (fun p => !p.working)

/-- What becomes of an active job in `CleanupJobs`. -/
def cleanEnt (e : Ent) : Option Ent :=
  match e.post with
  | none => some e
  | some p =>
    if p.working = false ∧ e.thread = false then
      if p.stage = .finished ∨ p.cancelled = true then
        (if e.complete then none else some { e with post := none, thread := false })
      else some (requeueEnt e)
    else some e

theorem reqEnt_twice (o : Opts) (e : Ent) : reqEnt o (reqEnt o e) = reqEnt o e := by
  unfold reqEnt
  cases hp : e.post with
  | none => dsimp only; rw [hp]
  | some p =>
    dsimp only
    have : ∀ j, checkRequestPar o (checkRequestPar o j) = checkRequestPar o j := by
      intro j
      rw [checkRequestPar.eq_1 o (checkRequestPar o j)]
      by_cases h : (checkRequestPar o j).post.requestPar = true
      · have hj : checkRequestPar o j = j := by
          unfold checkRequestPar at h ⊢
          split
          · rename_i hc; rw [if_pos hc] at h; exact nomatch h
          · rename_i hc
            rw [if_neg hc] at h
            split
            · rename_i hd; rw [if_pos hd] at h; exact nomatch h
            · rfl
        rw [hj]
        have hj' := hj
        unfold checkRequestPar at hj'
        exact hj'
      · rw [if_neg (fun hc => h hc.1), if_neg (fun hc => h hc.1)]
    rw [this ⟨e.nzb, p⟩]

theorem requestAll_closed (o : Opts) : ∀ (r : List Nat) (q q' : List Ent),
    requestAll o r q = some q' → q' = q.map (fun e => if e.id ∈ r then reqEnt o e else e)
  | [], q, q', h => by
    injection h with h
    rw [← h]
    symm
    refine (List.map_congr_left (g := fun e => e) (fun e _ => if_neg List.not_mem_nil)).trans ?_
    exact List.map_id' q
  | id :: r, q, q', h => by
    unfold requestAll at h
    cases hp : postOf id q with
    | none => rw [hp] at h; exact nomatch h
    | some p =>
      rw [hp] at h
      rw [requestAll_closed o r _ q' h]
      unfold upd
      rw [List.map_map]
      refine List.map_congr_left (fun e _ => ?_)
      show (if (if e.id = id then reqEnt o e else e).id ∈ r then
        reqEnt o (if e.id = id then reqEnt o e else e) else (if e.id = id then reqEnt o e else e)) = _
      by_cases hi : e.id = id
      · rw [if_pos hi, req_id, reqEnt_twice, if_pos (List.mem_cons.mpr (Or.inl hi))]
        split <;> rfl
      · rw [if_neg hi]
        by_cases hr : e.id ∈ r
        · rw [if_pos hr, if_pos (List.mem_cons_of_mem _ hr)]
        · rw [if_neg hr, if_neg (fun h => (List.mem_cons.mp h).elim hi hr)]

theorem cleanEnt_id {e e' : Ent} (h : cleanEnt e = some e') : e'.id = e.id := by
  unfold cleanEnt at h
  cases hp : e.post with
  | none => rw [hp] at h; injection h with h; rw [h]
  | some p =>
    rw [hp] at h
    dsimp only at h
    by_cases hc : p.working = false ∧ e.thread = false
    · rw [if_pos hc] at h
      by_cases hd : p.stage = .finished ∨ p.cancelled = true
      · rw [if_pos hd] at h
        by_cases hx : e.complete = true
        · rw [if_pos hx] at h; exact nomatch h
        · rw [if_neg hx] at h; injection h with h; rw [← h]
      · rw [if_neg hd] at h; injection h with h; rw [← h]; rfl
    · rw [if_neg hc] at h; injection h with h; rw [← h]

theorem filterMap_congr {f g : Ent → Option Ent} : ∀ {q : List Ent}, (∀ e ∈ q, f e = g e) →
    q.filterMap f = q.filterMap g
  | [], _ => rfl
  | e :: q, h => by
    rw [List.filterMap_cons, List.filterMap_cons, h e (List.mem_cons_self ..),
      filterMap_congr (fun x hx => h x (List.mem_cons_of_mem _ hx))]

theorem cleanupAll_sub : ∀ (r : List Nat) (q q' : List Ent) (n n' : Int) (a' : List Nat),
    cleanupAll r q n = some (a', q', n') → ∀ i ∈ a', i ∈ r
  | [], q, q', n, n', a', h => by
    injection h with h
    injection h with h1 _
    rw [← h1]
    exact fun _ h => h
  | id :: r, q, q', n, n', a', h => by
    unfold cleanupAll at h
    split at h
    · exact nomatch h
    · split at h
      · exact nomatch h
      · split at h
        · split at h
          · exact fun i hi => List.mem_cons_of_mem _ (cleanupAll_sub r _ _ _ _ _ h i hi)
          · exact fun i hi => List.mem_cons_of_mem _ (cleanupAll_sub r _ _ _ _ _ h i hi)
        · split at h
          · exact nomatch h
          · rename_i hc
            injection h with h
            injection h with h1 _
            rw [← h1]
            intro i hi
            rcases List.mem_cons.mp hi with hi | hi
            · rw [hi]; exact List.mem_cons_self ..
            · exact List.mem_cons_of_mem _ (cleanupAll_sub r _ _ _ _ _ hc i hi)

theorem cleanupAll_closed : ∀ (r : List Nat) (q q' : List Ent) (n n' : Int) (a' : List Nat),
    (q.map (·.id)).Nodup → r.Nodup → cleanupAll r q n = some (a', q', n') →
    q' = q.filterMap (fun e => if e.id ∈ r then cleanEnt e else some e) ∧
    (∀ e ∈ q, e.id ∈ a' ↔ e.id ∈ r ∧ idle e = false)
  | [], q, q', n, n', a', _, _, h => by
    injection h with h
    injection h with h1 h
    injection h with h _
    rw [← h, ← h1]
    refine ⟨?_, fun e _ => ⟨(fun h => nomatch h), (fun h => nomatch h.1)⟩⟩
    symm
    refine (filterMap_congr (g := some) (fun e _ => if_neg List.not_mem_nil)).trans ?_
    exact List.filterMap_some
  | id :: r, q, q', n, n', a', hn, hr, h => by
    unfold cleanupAll at h
    rw [List.nodup_cons] at hr
    cases hf : find id q with
    | none => rw [hf] at h; exact nomatch h
    | some e0 =>
      rw [hf] at h
      dsimp only at h
      obtain ⟨he0, hi0⟩ := find_mem hf
      cases hp : e0.post with
      | none => rw [hp] at h; exact nomatch h
      | some p =>
        rw [hp] at h
        dsimp only at h
        have only : ∀ e ∈ q, e.id = id → e = e0 := fun e he hi => uniq hn he he0 (by rw [hi, hi0])
        -- the rest of the list, after one job was changed
        have rest : ∀ (g : Ent → Option Ent) (q1 : List Ent) (m : Int), q1 = q.filterMap g →
            (q1.map (·.id)).Nodup → (∀ e ∈ q, e.id ≠ id → g e = some e) → g e0 = cleanEnt e0 →
            idle e0 = true → cleanupAll r q1 m = some (a', q', n') →
            q' = q.filterMap (fun e => if e.id ∈ id :: r then cleanEnt e else some e) ∧
            (∀ e ∈ q, e.id ∈ a' ↔ e.id ∈ id :: r ∧ idle e = false) := by
          intro g q1 m hq1 hn1 hg hg0 hid hc
          obtain ⟨h1, h2⟩ := cleanupAll_closed r q1 q' m n' a' hn1 hr.2 hc
          refine ⟨?_, ?_⟩
          · rw [h1, hq1, List.filterMap_filterMap]
            refine filterMap_congr (fun e he => ?_)
            by_cases hi : e.id = id
            · rw [only e he hi, hg0, if_pos (by rw [hi0]; exact List.mem_cons_self ..)]
              cases hce : cleanEnt e0 with
              | none => rfl
              | some e1 =>
                have := cleanEnt_id hce
                exact if_neg (by rw [this, hi0]; exact hr.1)
            · rw [hg e he hi]
              show (if e.id ∈ r then cleanEnt e else some e) = _
              by_cases hm : e.id ∈ r
              · rw [if_pos hm, if_pos (List.mem_cons_of_mem _ hm)]
              · rw [if_neg hm, if_neg (fun h => (List.mem_cons.mp h).elim hi hm)]
          · intro e he
            by_cases hi : e.id = id
            · rw [only e he hi]
              constructor
              · intro hm
                exact absurd (by rw [← hi0]; exact cleanupAll_sub r q1 q' m n' a' hc _ hm) hr.1
              · intro hm; rw [hid] at hm; exact nomatch hm.2
            · have hm : e ∈ q1 := by
                rw [hq1]
                exact List.mem_filterMap.mpr ⟨e, he, hg e he hi⟩
              rw [h2 e hm]
              constructor
              · exact fun h => ⟨List.mem_cons_of_mem _ h.1, h.2⟩
              · exact fun h => ⟨(List.mem_cons.mp h.1).resolve_left hi, h.2⟩
        by_cases hc : p.working = false ∧ e0.thread = false
        · rw [if_pos hc] at h
          have hid : idle e0 = true := by unfold idle; rw [hc.2, hp]; show (!p.working) = true; rw [hc.1]; rfl
          by_cases hd : p.stage = .finished ∨ p.cancelled = true
          · rw [if_pos hd] at h
            refine rest _ _ _ rfl (List.Sublist.nodup (completeJob_ids id q) hn) (fun e _ hi => ?_) ?_
              hid h
            · rw [if_neg hi]
            · rw [if_pos hi0]
              unfold cleanEnt
              rw [hp]
              dsimp only
              rw [if_pos hc, if_pos hd]
          · rw [if_neg hd] at h
            refine rest (fun e => some (if e.id = id then requeueEnt e else e)) _ _ ?_
              (by rw [upd_ids (f := requeueEnt) (fun _ => rfl)]; exact hn) (fun e _ hi => ?_) ?_ hid h
            · unfold upd; rw [List.filterMap_eq_map']
            · rw [if_neg hi]
            · rw [if_pos hi0]
              unfold cleanEnt
              rw [hp]
              dsimp only
              rw [if_pos hc, if_neg hd]
        · rw [if_neg hc] at h
          have hid : idle e0 = false := by
            unfold idle
            rw [hp]
            show (!e0.thread && !p.working) = false
            cases hw : p.working <;> cases ht : e0.thread <;> first | rfl | exact absurd ⟨hw, ht⟩ hc
          cases hcr : cleanupAll r q n with
          | none => rw [hcr] at h; exact nomatch h
          | some x =>
            obtain ⟨a1, q1, n1⟩ := x
            rw [hcr] at h
            injection h with h
            injection h with ha h
            injection h with h h'
            subst h
            obtain ⟨h1, h2⟩ := cleanupAll_closed r q _ n _ a1 hn hr.2 hcr
            refine ⟨?_, ?_⟩
            · rw [h1]
              refine filterMap_congr (fun e he => ?_)
              by_cases hi : e.id = id
              · rw [only e he hi, if_neg (by rw [hi0]; exact hr.1),
                  if_pos (by rw [hi0]; exact List.mem_cons_self ..)]
                unfold cleanEnt
                rw [hp]
                dsimp only
                rw [if_neg hc]
              · by_cases hm : e.id ∈ r
                · rw [if_pos hm, if_pos (List.mem_cons_of_mem _ hm)]
                · rw [if_neg hm, if_neg (fun h => (List.mem_cons.mp h).elim hi hm)]
            · intro e he
              rw [← ha]
              by_cases hi : e.id = id
              · rw [only e he hi]
                exact ⟨fun _ => ⟨by rw [hi0]; exact List.mem_cons_self .., hid⟩,
                  fun _ => by rw [hi0]; exact List.mem_cons_self ..⟩
              · constructor
                · intro hm
                  have := (h2 e he).mp ((List.mem_cons.mp hm).resolve_left hi)
                  exact ⟨List.mem_cons_of_mem _ this.1, this.2⟩
                · intro hm
                  exact List.mem_cons_of_mem _ ((h2 e he).mpr
                    ⟨(List.mem_cons.mp hm.1).resolve_left hi, hm.2⟩)

/-- What is left to do about par2-files without starting a stage. -/
def parsLeft (n : Nzb) : Nat :=
  if n.disk.pars then (if n.par = .skipped then 2 else if n.par = .none then 1 else 0)
  else (if n.par = .none then 1 else 0)

def one (b : Bool) : Nat := if b then 1 else 0

theorem one_le (b : Bool) : one b ≤ 1 := by cases b <;> decide

/-- The steps a waiting job may make without starting a stage. -/
def left (j : Job) : Nat :=
  2 * one j.post.requestPar + parsLeft j.nzb + one (!j.post.needPar) +
    one (decide (j.post.stage ≠ .queued))

def pot (a : List Nat) (e : Ent) : Nat :=
  if e.thread then 0
  else match e.post with
    | none => 0
    | some p => 2 * left ⟨e.nzb, p⟩ + one (decide (e.id ∉ a))

theorem parsLeft_le (n : Nzb) : parsLeft n ≤ 2 := by
  unfold parsLeft
  repeat' split
  all_goals decide

theorem left_le (j : Job) : left j ≤ 6 := by
  unfold left
  have := parsLeft_le j.nzb
  have := one_le j.post.requestPar
  have := one_le (!j.post.needPar)
  have := one_le (decide (j.post.stage ≠ .queued))
  omega

theorem pot_le (a : List Nat) (e : Ent) : pot a e ≤ 13 := by
  unfold pot
  split
  · decide
  · split
    · decide
    · rename_i p _
      have := left_le ⟨e.nzb, p⟩
      have := one_le (decide (e.id ∉ a))
      omega

/-- A request of a par-check which is accepted leaves less to do. -/
theorem left_request (o : Opts) (j : Job) :
    checkRequestPar o j = j ∨ left (checkRequestPar o j) + 1 ≤ left j := by
  have hle := parsLeft_le j.nzb
  unfold checkRequestPar
  by_cases h1 : j.post.requestPar = true ∧ (j.nzb.par.unchecked = true ∨
      (j.post.forceRepair = true ∧ j.nzb.parFull = false)) ∧ o.parCheck ≠ .manual
  · refine Or.inr ?_
    rw [if_pos h1]
    unfold left
    dsimp only
    have hp : parsLeft { j.nzb with par := .none } = 1 := by
      unfold parsLeft
      dsimp only
      cases j.nzb.disk.pars <;> rfl
    rw [hp, h1.1]
    have e1 : one false = 0 := rfl
    have e2 : one true = 1 := rfl
    rw [e1, e2]
    omega
  · rw [if_neg h1]
    by_cases h2 : j.post.requestPar = true ∧ j.nzb.par.unchecked = true ∧ o.parCheck = .manual
    · refine Or.inr ?_
      rw [if_pos h2]
      unfold left
      dsimp only
      have hp : parsLeft { j.nzb with par := .manual } = 0 := by
        unfold parsLeft
        dsimp only
        cases j.nzb.disk.pars <;> rfl
      rw [hp, h2.1]
      have e1 : one false = 0 := rfl
      have e2 : one true = 1 := rfl
      have e3 := one_le (decide ((if j.nzb.disk.files then Stage.finished else j.post.stage) ≠ .queued))
      rw [e1, e2]
      omega
    · rw [if_neg h2]; exact Or.inl rfl

theorem left_request_le (o : Opts) (j : Job) : left (checkRequestPar o j) ≤ left j := by
  rcases left_request o j with h | h
  · rw [h]; exact Nat.le_refl _
  · omega

/-- If no stage is entered there is less to do afterwards. -/
theorem left_start (o : Opts) (b : Bool) (j : Job)
    (hb : b = false → j.post.needPar = false) (h : (startJob o b j).post.working = false) :
    left (checkRequestPar o (startJob o b j)) + 1 ≤ left j := by
  have request : j.nzb.par = .skipped → j.nzb.disk.pars = true →
      left (checkRequestPar o { j with post := { j.post with requestPar := true } }) + 1 ≤ left j := by
    intro hs hd
    have hu : j.nzb.par.unchecked = true := by rw [hs]; rfl
    have hp : parsLeft j.nzb = 2 := by unfold parsLeft; rw [if_pos hd, if_pos hs]
    unfold checkRequestPar
    dsimp only
    by_cases hm : o.parCheck = .manual
    · rw [if_neg (fun h => h.2.2 hm), if_pos ⟨rfl, hu, hm⟩]
      unfold left
      dsimp only
      have hp' : parsLeft { j.nzb with par := .manual } = 0 := by
        unfold parsLeft
        dsimp only
        rw [hd]
        rfl
      have e1 : one false = 0 := rfl
      have e3 := one_le (decide ((if j.nzb.disk.files then Stage.finished else j.post.stage) ≠ .queued))
      rw [hp', hp, e1]
      omega
    · rw [if_pos ⟨rfl, Or.inl hu, hm⟩]
      unfold left
      dsimp only
      have hp' : parsLeft { j.nzb with par := .none } = 1 := by
        unfold parsLeft
        dsimp only
        rw [hd]
        rfl
      have e1 : one false = 0 := rfl
      rw [hp', hp, e1]
      omega
  have less : ∀ k : Job, startJob o b j = k → left k + 1 ≤ left j →
      left (checkRequestPar o (startJob o b j)) + 1 ≤ left j := by
    intro k hk hl
    rw [hk]
    have := left_request_le o k
    omega
  by_cases c1 : j.nzb.parRename = .none ∧ j.nzb.deleted = false ∧ o.parRename = true
  · have : startJob o b j = enterStage .parRenaming j := by unfold startJob; exact if_pos c1
    rw [this] at h; exact nomatch h
  by_cases c2 : j.nzb.par = .none ∧ j.nzb.deleted = false
  · by_cases c3 : j.nzb.disk.pars = true
    · cases b with
      | false =>
        refine less { j with post := { j.post with needPar := true } } ?_ ?_
        · unfold startJob
          dsimp only
          rw [if_neg c1, if_pos c2, if_pos c3]
          exact if_pos rfl
        · unfold left
          dsimp only
          rw [hb rfl]
          have e1 : one (!true) = 0 := rfl
          have e2 : one (!false) = 1 := rfl
          rw [e1, e2]
          omega
      | true =>
        have : startJob o true j =
            ⟨j.nzb, { j.post with working := true, stage := .loadingPars, needPar := false }⟩ := by
          unfold startJob
          dsimp only
          rw [if_neg c1, if_pos c2, if_pos c3, if_neg nofun]
          rfl
        rw [this] at h; exact nomatch h
    · refine less { j with nzb := { j.nzb with par := .skipped } } ?_ ?_
      · unfold startJob
        dsimp only
        rw [if_neg c1, if_pos c2, if_neg c3]
      · unfold left
        dsimp only
        have h1 : parsLeft { j.nzb with par := .skipped } = 0 := by
          unfold parsLeft
          dsimp only
          rw [if_neg c3]
          rfl
        have h2 : parsLeft j.nzb = 1 := by
          unfold parsLeft
          rw [if_neg c3, if_pos c2.1]
        rw [h1, h2]
        omega
  by_cases c4 : hopeless o j.nzb = true
  · refine less { j with nzb := { j.nzb with par := .failure } } ?_ ?_
    · unfold startJob
      dsimp only
      rw [if_neg c1, if_neg c2, if_pos c4]
    · simp only [hopeless, Bool.and_eq_true, beq_iff_eq] at c4
      unfold left
      dsimp only
      have h1 : parsLeft { j.nzb with par := .failure } = 0 := by
        unfold parsLeft
        dsimp only
        rw [c4.2]
        rfl
      have h2 : parsLeft j.nzb = 2 := by
        unfold parsLeft
        rw [if_pos c4.2, if_pos c4.1.1]
      rw [h1, h2]
      omega
  by_cases c5 : j.nzb.par = .skipped ∧ j.nzb.disk.damaged = true ∧ j.nzb.disk.pars = true
  · have : startJob o b j = { j with post := { j.post with requestPar := true } } := by
      unfold startJob
      dsimp only
      rw [if_neg c1, if_neg c2, if_neg c4, if_pos c5]
    rw [this]
    exact request c5.1 c5.2.2
  by_cases c6 : j.nzb.rarRename = .none ∧ toUnpack j.nzb = true ∧ o.rarRename = true
  · have : startJob o b j = enterStage .rarRenaming j := by
      unfold startJob
      dsimp only
      rw [if_neg c1, if_neg c2, if_neg c4, if_neg c5, if_pos c6]
    rw [this] at h; exact nomatch h
  by_cases c7 : j.nzb.par = .skipped ∧ j.nzb.deleted = false ∧ o.parCheck = .auto ∧
      j.nzb.disk.archives = false ∧ j.nzb.disk.pars = true
  · have : startJob o b j = { j with post := { j.post with requestPar := true } } := by
      unfold startJob
      dsimp only
      rw [if_neg c1, if_neg c2, if_neg c4, if_neg c5, if_neg c6, if_pos c7]
    rw [this]
    exact request c7.1 c7.2.2.2.2
  have hs : startJob o b j = startLast o j := by
    unfold startJob
    dsimp only
    rw [if_neg c1, if_neg c2, if_neg c4, if_neg c5, if_neg c6, if_neg c7]
  rw [hs] at h
  unfold startLast at h
  dsimp only at h
  split at h
  · exact nomatch h
  · split at h
    · exact nomatch h
    · split at h <;> exact nomatch h

/-- No active job is idle, except for those which will be put back to the queue. -/
def Fresh (a : List Nat) (q : List Ent) : Prop :=
  ∀ e ∈ q, e.id ∈ a → idle e = true → ∀ p, e.post = some p → p.stage ≠ .queued

/-- The jobs which are cleaned up have nothing to do, or wait. -/
theorem pot_clean (a2 : List Nat) (e e3 : Ent) (hid : idle e = true) (p : Post)
    (hp : e.post = some p) (h : cleanEnt e = some e3) :
    pot a2 e3 ≤ 2 * (left ⟨e.nzb, p⟩ - one (decide (p.stage ≠ .queued))) + 1 := by
  unfold idle at hid
  rw [hp] at hid
  simp only [Option.any_some, Bool.and_eq_true, Bool.not_eq_true'] at hid
  unfold cleanEnt at h
  rw [hp] at h
  dsimp only at h
  rw [if_pos ⟨hid.2, hid.1⟩] at h
  by_cases hd : p.stage = .finished ∨ p.cancelled = true
  · rw [if_pos hd] at h
    by_cases hc : e.complete = true
    · rw [if_pos hc] at h; exact nomatch h
    · rw [if_neg hc] at h
      injection h with h
      rw [← h]
      exact Nat.zero_le _
  · rw [if_neg hd] at h
    injection h with h
    rw [← h]
    unfold pot requeueEnt onPost
    dsimp only
    rw [hid.1, if_neg nofun, hp]
    show 2 * left ⟨e.nzb, { p with stage := .queued }⟩ + one (decide (e.id ∉ a2)) ≤ _
    have h1 := one_le (decide (e.id ∉ a2))
    have h2 : left ⟨e.nzb, { p with stage := .queued }⟩ =
        left ⟨e.nzb, p⟩ - one (decide (p.stage ≠ .queued)) := by
      unfold left
      dsimp only
      have e1 : one (decide (Stage.queued ≠ Stage.queued)) = 0 := rfl
      rw [e1]
      omega
    rw [h2]
    omega

/-- The whole round for one entry. -/
def round (o : Opts) (allow : Bool) (e0 : Ent) (r : List Nat) (e : Ent) : Option Ent :=
  let e1 := if e.id = e0.id then startEnt o allow e else e
  let e2 := if e1.id ∈ r then reqEnt o e1 else e1
  if e2.id ∈ r then cleanEnt e2 else some e2

theorem req_thread (o : Opts) (e : Ent) : (reqEnt o e).thread = e.thread := by
  unfold reqEnt
  cases e.post <;> rfl

theorem clean_busy {e : Ent} (h : e.thread = true) : cleanEnt e = some e := by
  unfold cleanEnt
  cases hp : e.post with
  | none => rfl
  | some p => dsimp only; rw [if_neg (fun hc => by rw [h] at hc; exact nomatch hc.2)]

theorem pot_round (o : Opts) (allow : Bool) (a a2 : List Nat) (q : List Ent) (e0 : Ent) (p0 : Post)
    (hn : (q.map (·.id)).Nodup) (h0 : e0 ∈ q) (hp0 : e0.post = some p0)
    (ht0 : e0.thread = false) (ha0 : e0.id ∉ a) (hb : allow = false → p0.needPar = false)
    (fresh : Fresh a q) (post : ∀ e ∈ q, e.id ∈ a → e.post.isSome = true)
    (h2 : ∀ e ∈ q, ∀ e2, e2 = (if e.id ∈ a ++ [e0.id] then
        reqEnt o (if e.id = e0.id then startEnt o allow e else e) else e) →
        (e2.id ∈ a2 ↔ e2.id ∈ a ++ [e0.id] ∧ idle e2 = false))
    (e : Ent) (he : e ∈ q) :
    (∀ e3, round o allow e0 (a ++ [e0.id]) e = some e3 →
      pot a2 e3 + (if e.id = e0.id then 1 else 0) ≤ pot a e) ∧
    (if e.id = e0.id then 1 else 0) ≤ pot a e := by
  have pot0 : pot a e0 = 2 * left ⟨e0.nzb, p0⟩ + 1 := by
    unfold pot
    rw [ht0, if_neg nofun, hp0]
    dsimp only
    rw [decide_eq_true ha0]
    rfl
  have h2' := h2 e he
  by_cases hi : e.id = e0.id
  · have hee : e = e0 := uniq hn he h0 hi
    subst hee
    rw [if_pos rfl]
    have hmem : e.id ∈ a ++ [e.id] := List.mem_append_right _ (List.mem_cons_self ..)
    refine ⟨fun e3 h3 => ?_, by rw [pot0]; omega⟩
    have h2'' := h2' _ rfl
    rw [if_pos hmem, if_pos rfl, req_id, start_id] at h2''
    unfold round at h3
    dsimp only at h3
    rw [if_pos rfl, start_id, if_pos hmem, req_id, start_id, if_pos hmem] at h3
    have hs : startEnt o allow e = { e with
        nzb := (startJob o allow ⟨e.nzb, p0⟩).nzb
        post := some (startJob o allow ⟨e.nzb, p0⟩).post
        thread := (startJob o allow ⟨e.nzb, p0⟩).post.working } := by
      unfold startEnt
      rw [hp0]
    cases hw : (startJob o allow ⟨e.nzb, p0⟩).post.working with
    | true =>
      have ht : (reqEnt o (startEnt o allow e)).thread = true := by
        rw [req_thread, hs]; exact hw
      rw [clean_busy ht] at h3
      injection h3 with h3
      rw [← h3, pot0]
      have : pot a2 (reqEnt o (startEnt o allow e)) = 0 := by
        unfold pot
        rw [if_pos ht]
      omega
    | false =>
      have hl := left_start o allow ⟨e.nzb, p0⟩ hb hw
      have hpost : (reqEnt o (startEnt o allow e)).post =
          some (checkRequestPar o (startJob o allow ⟨e.nzb, p0⟩)).post := by
        rw [hs]; rfl
      have hnzb : (reqEnt o (startEnt o allow e)).nzb =
          (checkRequestPar o (startJob o allow ⟨e.nzb, p0⟩)).nzb := by
        rw [hs]; rfl
      have hidle : idle (reqEnt o (startEnt o allow e)) = true := by
        unfold idle
        rw [hpost, req_thread, hs]
        show (!(startJob o allow ⟨e.nzb, p0⟩).post.working &&
          !(checkRequestPar o (startJob o allow ⟨e.nzb, p0⟩)).post.working) = true
        rw [hw]
        cases hc : (checkRequestPar o (startJob o allow ⟨e.nzb, p0⟩)).post.working with
        | false => rfl
        | true => rw [checkRequestPar_running o _ hc, hw] at hc; exact nomatch hc
      have hna : (reqEnt o (startEnt o allow e)).id ∉ a2 := by
        rw [req_id, start_id]
        intro hm
        have := (h2''.mp hm).2
        rw [hidle] at this
        exact nomatch this
      have := pot_clean a2 _ e3 hidle _ hpost h3
      rw [hnzb] at this
      rw [pot0]
      have hx : left ⟨(checkRequestPar o (startJob o allow ⟨e.nzb, p0⟩)).nzb,
        (checkRequestPar o (startJob o allow ⟨e.nzb, p0⟩)).post⟩ =
        left (checkRequestPar o (startJob o allow ⟨e.nzb, p0⟩)) := rfl
      rw [hx] at this
      omega
  · rw [if_neg hi]
    refine ⟨fun e3 h3 => ?_, Nat.zero_le _⟩
    unfold round at h3
    dsimp only at h3
    rw [if_neg hi] at h3
    rw [if_neg hi] at h2'
    by_cases hm : e.id ∈ a ++ [e0.id]
    · have ha : e.id ∈ a := by
        rcases List.mem_append.mp hm with h | h
        · exact h
        · exact absurd (List.mem_singleton.mp h) hi
      rw [if_pos hm] at h2'
      have h2'' := h2' _ rfl
      rw [req_id] at h2''
      rw [if_pos hm, req_id, if_pos hm] at h3
      cases ht : e.thread with
      | true =>
        have ht' : (reqEnt o e).thread = true := by rw [req_thread]; exact ht
        rw [clean_busy ht'] at h3
        injection h3 with h3
        have : pot a2 e3 = 0 := by unfold pot; rw [← h3, if_pos ht']
        omega
      | false =>
        obtain ⟨p, hp⟩ := Option.isSome_iff_exists.mp (post e he ha)
        have hpot : pot a e = 2 * left ⟨e.nzb, p⟩ := by
          unfold pot
          rw [ht, if_neg nofun, hp]
          dsimp only
          rw [decide_eq_false (fun h => h ha)]
          rfl
        have hpost : (reqEnt o e).post = some (checkRequestPar o ⟨e.nzb, p⟩).post := by
          unfold reqEnt; rw [hp]
        have hnzb : (reqEnt o e).nzb = (checkRequestPar o ⟨e.nzb, p⟩).nzb := by
          unfold reqEnt; rw [hp]
        cases hw : (checkRequestPar o ⟨e.nzb, p⟩).post.working with
        | true =>
          have hsame := checkRequestPar_running o _ hw
          have hee : reqEnt o e = e := by
            unfold reqEnt
            rw [hp]
            dsimp only
            rw [hsame, ← hp]
          rw [hee] at h3 h2''
          rw [hsame] at hw
          have hw : p.working = true := hw
          have hni : idle e = false := by
            unfold idle
            rw [hp]
            show (!e.thread && !p.working) = false
            rw [hw]
            exact Bool.and_false _
          unfold cleanEnt at h3
          rw [hp] at h3
          dsimp only at h3
          rw [if_neg (fun h => by rw [hw] at h; exact nomatch h.1)] at h3
          injection h3 with h3
          rw [← h3, hpot]
          unfold pot
          rw [ht, if_neg nofun, hp]
          dsimp only
          rw [decide_eq_false (fun h => h (h2''.mpr ⟨hm, hni⟩))]
          exact Nat.le_refl _
        | false =>
          have hidle : idle (reqEnt o e) = true := by
            unfold idle
            rw [hpost, req_thread, ht]
            show (!false && !(checkRequestPar o ⟨e.nzb, p⟩).post.working) = true
            rw [hw]
            rfl
          have hna : (reqEnt o e).id ∉ a2 := by
            rw [req_id]
            intro hx
            have := (h2''.mp hx).2
            rw [hidle] at this
            exact nomatch this
          have hle := pot_clean a2 _ e3 hidle _ hpost h3
          rw [hnzb] at hle
          have hx : left ⟨(checkRequestPar o ⟨e.nzb, p⟩).nzb, (checkRequestPar o ⟨e.nzb, p⟩).post⟩ =
            left (checkRequestPar o ⟨e.nzb, p⟩) := rfl
          rw [hx] at hle
          rw [hpot]
          rcases left_request o ⟨e.nzb, p⟩ with h4 | h4
          · rw [h4] at hle hw
            have hei : idle e = true := by
              unfold idle
              rw [ht, hp]
              show (!false && !p.working) = true
              have hw : p.working = false := hw
              rw [hw]
              rfl
            have hst := fresh e he ha hei p hp
            rw [decide_eq_true hst] at hle
            have h5 : 1 ≤ left ⟨e.nzb, p⟩ := by
              unfold left
              dsimp only
              rw [decide_eq_true hst]
              have : one true = 1 := rfl
              omega
            have : one true = 1 := rfl
            omega
          · omega
    · rw [if_neg hm, if_neg hm] at h3
      injection h3 with h3
      rw [if_neg hm] at h2'
      have h2'' := h2' _ rfl
      rw [← h3]
      have h4 : e.id ∉ a := fun h => hm (List.mem_append_left _ h)
      have h5 : e.id ∉ a2 := fun h => hm (h2''.mp h).1
      unfold pot
      rw [decide_eq_true h4, decide_eq_true h5]
      exact Nat.le_refl _

/-- All that is left to do in one run of `CheckPostQueue`. -/
def total (a : List Nat) (q : List Ent) : Nat := (q.map (pot a)).sum

theorem total_le (a : List Nat) : ∀ q : List Ent, total a q ≤ 13 * q.length
  | [] => Nat.le_refl _
  | e :: q => by
    unfold total
    rw [List.map_cons, List.sum_cons, List.length_cons]
    have h1 := pot_le a e
    have h2 : (q.map (pot a)).sum ≤ 13 * q.length := total_le a q
    omega

theorem total_filterMap {a a2 : List Nat} {g : Ent → Option Ent} {d : Ent → Nat} : ∀ {q : List Ent},
    (∀ e ∈ q, (∀ e3, g e = some e3 → pot a2 e3 + d e ≤ pot a e) ∧ d e ≤ pot a e) →
    total a2 (q.filterMap g) + (q.map d).sum ≤ total a q
  | [], _ => Nat.le_refl _
  | e :: q, h => by
    have ih : total a2 (q.filterMap g) + (q.map d).sum ≤ total a q :=
      total_filterMap (fun x hx => h x (List.mem_cons_of_mem _ hx))
    obtain ⟨h1, h2⟩ := h e (List.mem_cons_self ..)
    have e1 : total a (e :: q) = pot a e + total a q := by
      unfold total; rw [List.map_cons, List.sum_cons]
    rw [e1, List.map_cons, List.sum_cons, List.filterMap_cons]
    cases hg : g e with
    | none => dsimp only; omega
    | some e3 =>
      dsimp only
      have e2 : total a2 (e3 :: q.filterMap g) = pot a2 e3 + total a2 (q.filterMap g) := by
        unfold total; rw [List.map_cons, List.sum_cons]
      have := h1 e3 hg
      omega

theorem sum_pos {d : Ent → Nat} {e : Ent} (hd : 1 ≤ d e) (q : List Ent) (he : e ∈ q) :
    1 ≤ (q.map d).sum := by
  induction q with
  | nil => exact nomatch he
  | cons x q ih =>
    rw [List.map_cons, List.sum_cons]
    rcases List.mem_cons.mp he with he | he
    · rw [← he]; omega
    · have := ih he
      omega

theorem fresh_cleanup {r : List Nat} {q q' : List Ent} {n n' : Int} {a' : List Nat}
    (hn : (q.map (·.id)).Nodup) (hr : r.Nodup) (h : cleanupAll r q n = some (a', q', n')) :
    Fresh a' q' := by
  obtain ⟨h1, h2⟩ := cleanupAll_closed r q q' n n' a' hn hr h
  intro e' he' hm hid p hp
  rw [h1] at he'
  obtain ⟨e, he, hg⟩ := List.mem_filterMap.mp he'
  have hee : e'.id = e.id := by
    by_cases hi : e.id ∈ r
    · rw [if_pos hi] at hg; exact cleanEnt_id hg
    · rw [if_neg hi] at hg; injection hg with hg; rw [hg]
  rw [hee, h2 e he] at hm
  rw [if_pos hm.1] at hg
  -- a job which stays active isn't idle
  exfalso
  have : cleanEnt e = some e := by
    unfold cleanEnt
    cases hpe : e.post with
    | none => rfl
    | some p1 =>
      dsimp only
      rw [if_neg]
      intro hc
      have h3 := hm.2
      unfold idle at h3
      rw [hpe, hc.2] at h3
      have h3 : (!false && !p1.working) = false := h3
      rw [hc.1] at h3
      exact nomatch h3
  rw [this] at hg
  injection hg with hg
  rw [← hg, hm.2] at hid
  exact nomatch hid

/-- Specification: the strategy allows no further job beside jobs in these stages. One job at a time; or one job
and, while it repairs, one other; or three jobs; or six jobs. -/
def Full : Strategy → List Stage → Prop
  | .sequential, l => l ≠ []
  | .balanced, l => (∃ s ∈ l, s.par = false) ∨ ((∃ s ∈ l, s.par = true) ∧ Stage.repairing ∉ l)
  | .aggressive, l => 3 ≤ l.length
  | .rocket, l => 6 ≤ l.length

/-- Specification: no further job may check or repair beside jobs in these stages. -/
def ParFull : Strategy → List Stage → Prop
  | .sequential, _ => False
  | .balanced, l => ∃ s ∈ l, s.par = true
  | .aggressive, l => ∃ s ∈ l, s.par = true
  | .rocket, l => 2 ≤ (l.filter Stage.par).length

theorem filter_zero (p : Stage → Bool) (l : List Stage) : (l.filter p).length = 0 ↔ ¬ ∃ s ∈ l, p s = true := by
  rw [List.length_eq_zero_iff, List.filter_eq_nil_iff]
  exact ⟨fun h ⟨s, hs, e⟩ => h s hs e, fun h s hs e => h ⟨s, hs, e⟩⟩

theorem canRun_spec (s : Strategy) (l : List Stage) :
    ((canRun s l).1 = false ↔ Full s l) ∧ ((canRun s l).2 = false ↔ ParFull s l) := by
  have hp := filter_zero Stage.par l
  have ho : (l.filter (fun s => !s.par)).length = 0 ↔ ¬ ∃ s ∈ l, s.par = false := by
    rw [filter_zero]
    simp only [Bool.not_eq_true']
  have ha : l.any (· == .repairing) = true ↔ Stage.repairing ∈ l := by
    rw [List.any_eq_true]
    constructor
    · intro ⟨x, hx, e⟩; rw [← eq_of_beq e]; exact hx
    · intro h; exact ⟨_, h, beq_self_eq_true _⟩
  cases s
  · unfold canRun Full ParFull
    dsimp only
    refine ⟨?_, ⟨(fun h => Bool.noConfusion h), False.elim⟩⟩
    rw [beq_eq_false_iff_ne]
    exact not_congr List.length_eq_zero_iff
  · unfold canRun Full ParFull
    dsimp only
    rw [Bool.and_eq_false_iff, Bool.or_eq_false_iff, beq_eq_false_iff_ne, beq_eq_false_iff_ne, Ne, Ne, ho, hp,
      ← Bool.not_eq_true, ha, Classical.not_not, Classical.not_not]
    exact ⟨Iff.rfl, Iff.rfl⟩
  · unfold canRun Full ParFull
    dsimp only
    rw [decide_eq_false_iff_not, decide_eq_false_iff_not, Nat.not_lt]
    refine ⟨Iff.rfl, ?_⟩
    have : ¬ (l.filter Stage.par).length < 1 ↔ ¬ (l.filter Stage.par).length = 0 := by omega
    rw [this, hp, Classical.not_not]
  · unfold canRun Full ParFull
    dsimp only
    rw [decide_eq_false_iff_not, decide_eq_false_iff_not, Nat.not_lt, Nat.not_lt]
    exact ⟨Iff.rfl, Iff.rfl⟩

/-- What holds when no further job is started: the strategy allows no further job, or no download is
waiting for one. -/
def Saturated (c : Cfg) (paused : Bool) (a : List Nat) (q : List Ent) : Prop :=
  ∃ l, stages q a = some l ∧ (Full c.strategy l ∨
    ∃ allowPar, (allowPar = false ↔ ParFull c.strategy l) ∧ ∀ e ∈ q, ¬ Waiting paused allowPar a e)

theorem loop_ends (c : Cfg) (paused : Bool) : ∀ (f : Nat) (a : List Nat) (q : List Ent) (n : Int),
    WF a q n → Fresh a q → total a q < f →
    ∃ a' q' n', loop c paused f a q n = some (true, a', q', n') ∧ Saturated c paused a' q'
  | 0, _, _, _, _, _, h => absurd h (Nat.not_lt_zero _)
  | f + 1, a, q, n, h, fr, ht => by
    obtain ⟨l, hl⟩ := stages_some h a (fun _ hx => hx)
    unfold loop
    rw [hl]
    dsimp only
    by_cases hm : (canRun c.strategy l).1 = true
    · rw [if_pos hm]
      cases hp : pick paused (canRun c.strategy l).2 a q with
      | none =>
        refine ⟨a, q, n, rfl, l, hl, Or.inr ⟨_, (canRun_spec c.strategy l).2, ?_⟩⟩
        rcases next_has_highest_priority paused (canRun c.strategy l).2 a q with h1 | ⟨e, _, _, h1, _⟩
        · exact h1.2
        · rw [hp] at h1; exact nomatch h1
      | some e =>
        obtain ⟨he, hel⟩ := pick_mem hp
        obtain ⟨p, h1, h2, -, -, h5, h6, h7, -⟩ := eligible_spec hel
        dsimp only
        rw [h1]
        dsimp only
        have hth : e.thread = false := by
          cases hx : e.thread with
          | false => rfl
          | true => exact absurd (h.busy e he (Or.inl hx)) h7
        rw [if_neg (by rw [hth]; exact nofun)]
        have hpush := wf_push h he h1 h7
        by_cases hs : p.stage = .queued ∧ (paused = false ∨ e.force = true)
        · rw [if_pos hs]
          have hmem : e.id ∈ a ++ [e.id] := List.mem_append_right _ (List.mem_cons_self ..)
          obtain ⟨q1, hq1, w1⟩ := requestAll_wf c.opts (a ++ [e.id]) _ (fun _ hx => hx)
            (wf_start hpush hmem c.opts (canRun c.strategy l).2)
          rw [hq1]
          dsimp only
          obtain ⟨a2, q2, n2, h3, w2⟩ := cleanupAll_wf (a ++ [e.id]) [] q1 n w1
          rw [h3]
          have hc1 := requestAll_closed c.opts _ _ _ hq1
          obtain ⟨hc2, hc3⟩ := cleanupAll_closed _ _ _ _ _ _ w1.ids hpush.act h3
          refine loop_ends c paused f a2 q2 n2 w2 (fresh_cleanup w1.ids hpush.act h3) ?_
          -- what is left to do
          have hq2 : q2 = q.filterMap (round c.opts (canRun c.strategy l).2 e (a ++ [e.id])) := by
            rw [hc2, hc1]
            unfold upd
            rw [List.filterMap_map, List.filterMap_map]
            rfl
          have key := pot_round c.opts (canRun c.strategy l).2 a a2 q e p h.ids he h1 hth h7
            (fun hb => by
              rcases h6 with h6 | h6
              · rw [hb] at h6; exact nomatch h6
              · exact h6) fr
            (fun x hx hxa => by
              obtain ⟨y, hy, hyi, hyp⟩ := h.there _ hxa
              rw [← uniq h.ids hy hx hyi]; exact hyp)
            (fun x hx x2 hx2 => by
              refine hc3 x2 ?_
              rw [hc1]
              refine List.mem_map.mpr ⟨if x.id = e.id then startEnt c.opts (canRun c.strategy l).2 x
                else x, mem_upd_of hx, ?_⟩
              have hid : (if x.id = e.id then startEnt c.opts (canRun c.strategy l).2 x else x).id =
                  x.id := by
                by_cases hi : x.id = e.id
                · rw [if_pos hi, start_id]
                · rw [if_neg hi]
              rw [hid, hx2]
              by_cases hxm : x.id ∈ a ++ [e.id]
              · rw [if_pos hxm, if_pos hxm]
              · rw [if_neg hxm, if_neg hxm,
                  if_neg (fun hi => hxm (List.mem_append_right _ (List.mem_singleton.mpr hi)))])
          have hsum := total_filterMap (a := a) (a2 := a2)
            (g := round c.opts (canRun c.strategy l).2 e (a ++ [e.id]))
            (d := fun x => if x.id = e.id then 1 else 0) (q := q) key
          have hpos : 1 ≤ (q.map (fun x => if x.id = e.id then 1 else 0)).sum :=
            sum_pos (d := fun x => if x.id = e.id then 1 else 0) (e := e)
              (by show 1 ≤ (if e.id = e.id then 1 else 0); rw [if_pos rfl]; exact Nat.le_refl _) q he
          rw [hq2]
          omega
        · rw [if_neg hs]
          have hst : p.stage ≠ .queued := fun hst => hs ⟨hst, h5⟩
          refine loop_ends c paused f _ q n hpush ?_ ?_
          · intro x hx hxm hid p' hp'
            rcases List.mem_append.mp hxm with hxa | hxa
            · exact fr x hx hxa hid p' hp'
            · rw [uniq h.ids hx he (List.mem_singleton.mp hxa), h1] at hp'
              injection hp' with hp'
              rw [← hp']; exact hst
          · have key : ∀ x ∈ q, (∀ e3, some x = some e3 → pot (a ++ [e.id]) e3 +
                (if x.id = e.id then 1 else 0) ≤ pot a x) ∧ (if x.id = e.id then 1 else 0) ≤ pot a x := by
              intro x hx
              have : pot (a ++ [e.id]) x + (if x.id = e.id then 1 else 0) ≤ pot a x := by
                by_cases hi : x.id = e.id
                · have hxe := uniq h.ids hx he hi
                  subst hxe
                  unfold pot
                  rw [hth, h1, decide_eq_true h7, decide_eq_false (fun hc => hc
                    (List.mem_append_right _ (List.mem_cons_self ..))), if_pos rfl]
                  exact Nat.le_refl _
                · have hiff : (x.id ∉ a ++ [e.id]) = (x.id ∉ a) := by
                    rw [List.mem_append, List.mem_singleton]
                    simp only [hi, or_false]
                  unfold pot
                  rw [if_neg hi]
                  simp only [hiff]
                  exact Nat.le_refl _
              refine ⟨fun e3 h3 => ?_, by omega⟩
              injection h3 with h3
              rw [← h3]; exact this
            have hsum := total_filterMap (a := a) (a2 := a ++ [e.id]) (g := some)
              (d := fun x => if x.id = e.id then 1 else 0) (q := q) key
            have hpos : 1 ≤ (q.map (fun x => if x.id = e.id then 1 else 0)).sum :=
              sum_pos (d := fun x => if x.id = e.id then 1 else 0) (e := e)
                (by show 1 ≤ (if e.id = e.id then 1 else 0); rw [if_pos rfl]; exact Nat.le_refl _) q he
            rw [List.filterMap_some] at hsum
            omega
    · rw [if_neg hm]
      refine ⟨a, q, n, rfl, l, hl, Or.inl ((canRun_spec c.strategy l).1.mp ?_)⟩
      cases hx : (canRun c.strategy l).1 with
      | false => rfl
      | true => exact absurd hx hm

theorem cleanupAll_length {r : List Nat} {q q' : List Ent} {n n' : Int} {a' : List Nat}
    (hn : (q.map (·.id)).Nodup) (hr : r.Nodup) (h : cleanupAll r q n = some (a', q', n')) :
    q'.length ≤ q.length := by
  rw [(cleanupAll_closed r q q' n n' a' hn hr h).1]
  exact List.length_filterMap_le ..

/-- (Partial: for histories without a deletion between two stages.) **A look at the queue ends, and no
job is forgotten.** Whatever has happened before, the loop
which starts jobs ends after at most 13 rounds for every download in the queue (it is executed with
the lock of the queue: if it didn't end, the program would hang). When it has ended, either the
strategy allows no further job, or no download is waiting for one. -/
theorem check_ends_partial (c : Cfg) (s0 s : St) (h0 : Start s0) (evs : List Ev) (hs : Safe c evs s0)
    (hrun : run c evs s0 = some s) (fuel : Nat) (hf : 13 * s.queue.length < fuel) :
    ∃ s', check c fuel s = some (true, s') ∧ Saturated c s.paused s'.active s'.queue := by
  have w : s.WF := by
    obtain ⟨s1, h1, w⟩ := run_wf c evs s0 (start_wf h0) hs
    rw [hrun] at h1
    injection h1 with h1
    rw [h1]; exact w
  obtain ⟨q1, h1, w1⟩ := requestAll_wf c.opts s.active s.queue (fun _ hx => hx) w
  obtain ⟨a2, q2, n2, h2, w2⟩ := cleanupAll_wf s.active [] q1 s.queued w1
  have hlen : q2.length ≤ s.queue.length := by
    have e1 := cleanupAll_length w1.ids w.act h2
    have e2 := requestAll_closed _ _ _ _ h1
    rw [e2, List.length_map] at e1
    exact e1
  have ht := total_le a2 q2
  obtain ⟨a', q', n', h3, h4⟩ := loop_ends c s.paused fuel a2 q2 n2 w2
    (fresh_cleanup w1.ids w.act h2) (by omega)
  unfold check
  rw [h1]
  dsimp only
  rw [h2]
  dsimp only
  rw [h3]
  exact ⟨_, rfl, h4⟩

end Verif.PostQueue
