import Verif.PostJobLemmas
/-!
# What post-processing does with a download, in which order, and that it ends

The model is in `Verif.PostJob`. `enter o n` is the download `n` which has just been queued for
post-processing, `course o ws j` is the course of post-processing if the stages report `ws`: the
list of the entered stages and the state at the end (`left`: post-processing is completed).
-/
namespace Verif.PostJob

/-- The post-processing of the download `n` may come to the point where `j` waits for the next
stage. -/
def Reach (o : Opts) (n : Nzb) (j : Job) : Prop :=
  ∃ ws, (course o ws (enter o n)).2 = .again j

/-- The option ParCheck wasn't changed to "manual" after a quick par-check was made. -/
def Fresh (o : Opts) (n : Nzb) : Prop :=
  o.parCheck = .manual → n.par = .success → n.parFull = true

theorem inv_enter {o : Opts} {n : Nzb} (hf : Fresh o n) : Inv o (enter o n) := by
  unfold enter
  refine ⟨rfl, rfl, rfl, rfl, nofun, ?_, ?_⟩
  · intro h; rcases h with h | h <;> exact nomatch h
  · intro ho
    dsimp only
    by_cases h : n.par = .none ∧ o.parCheck ≠ .always ∧ o.parCheck ≠ .force
    · rw [if_pos h]; exact ⟨nofun, nofun⟩
    · rw [if_neg h]
      refine ⟨fun hn => h ⟨hn, by rw [ho]; exact nofun, by rw [ho]; exact nofun⟩, hf ho⟩

theorem course_inv {o : Opts} : ∀ (ws : List Work) (j j' : Job), Inv o j →
    (course o ws j).2 = .again j' → Inv o j'
  | [], j, j', hi, h => by
    injection h with h; subst h; exact hi
  | w :: ws, j, j', hi, h => by
    have hg := good_turn hi w
    unfold course at h
    cases ht : turn o w j with
    | busy k => rw [ht] at hg; exact hg.elim
    | left k => rw [ht] at h; exact nomatch h
    | again k =>
      rw [ht] at h hg
      exact course_inv ws k j' hg.1 h

theorem reach_inv {o : Opts} {n : Nzb} {j : Job} (hf : Fresh o n) (h : Reach o n j) : Inv o j := by
  obtain ⟨ws, h⟩ := h
  exact course_inv ws _ _ (inv_enter hf) h

/-! ## Post-processing ends -/

theorem course_finishes {o : Opts} : ∀ (ws : List Work) (j : Job), Inv o j →
    measure j < ws.length → ∃ j', (course o ws j).2 = .left j'
  | [], _, _, h => absurd h (Nat.not_lt_zero _)
  | w :: ws, j, hi, h => by
    have hg := good_turn hi w
    unfold course
    cases ht : turn o w j with
    | busy k => rw [ht] at hg; exact hg.elim
    | left k => exact ⟨k, rfl⟩
    | again k =>
      rw [ht] at hg
      have hl : measure k < ws.length := by
        rw [List.length_cons] at h
        exact Nat.lt_of_lt_of_le hg.2 (Nat.le_of_lt_succ h)
      exact course_finishes ws k hg.1 hl

/-- **Post-processing ends.** Whatever the renaming, the par-checks, the unpackers, the cleanup, the
move and the scripts report, and whatever the stages find on disk: the post-processing of a download
is completed after at most 40 turns, and 4 more for every par2-file which wasn't downloaded yet. -/
theorem post_processing_ends (o : Opts) (n : Nzb) (hf : Fresh o n) (ws : List Work)
    (hl : 40 + 4 * n.disk.remPars ≤ ws.length) :
    ∃ j, (course o ws (enter o n)).2 = .left j := by
  refine course_finishes ws _ (inv_enter hf) ?_
  have := measure_le (enter o n)
  have hd : (enter o n).nzb.disk = n.disk := by
    unfold enter
    dsimp only
    split <;> rfl
  rw [hd] at this
  omega

/-- The hypotheses are met: a download with 3 par2-files left for download. -/
example : ∃ n : Nzb, Fresh ⟨.manual, true, true, true, true, true, true⟩ n ∧ n.disk.remPars = 3 ∧
    n.par = .none :=
  ⟨⟨false, true, false, .none, .none, false, .none, .none, .none, .none,
    ⟨true, true, true, 3, true, 900, 800, true⟩⟩, (fun _ h => nomatch h), rfl, rfl⟩

/-! ## How a turn goes -/

/-- The job in the result of a turn. -/
def After.job : After → Job
  | .busy j => j
  | .again j => j
  | .left j => j

theorem cleanupJob_job (j : Job) : (cleanupJob j).job.nzb = j.nzb ∧
    (cleanupJob j).job.post.cancelled = j.post.cancelled := by
  unfold cleanupJob
  split
  · exact ⟨rfl, rfl⟩
  · split <;> exact ⟨rfl, rfl⟩

/-- Everything `StartJob` may do with a waiting job. -/
theorem start_cases (o : Opts) (j : Job) :
    (j.nzb.parRename = .none ∧ startJob o true j = enterStage .parRenaming j) ∨
    (j.nzb.par = .none ∧ j.nzb.deleted = false ∧ startJob o true j =
      ⟨j.nzb, { j.post with working := true, stage := .loadingPars, needPar := false }⟩) ∨
    (j.nzb.par = .none ∧ startJob o true j = { j with nzb := { j.nzb with par := .skipped } }) ∨
    (j.nzb.par = .skipped ∧ startJob o true j = { j with nzb := { j.nzb with par := .failure } }) ∨
    (j.nzb.par = .skipped ∧ startJob o true j = { j with post := { j.post with requestPar := true } }) ∨
    (startJob o true j = enterStage .rarRenaming j) ∨
    (toUnpack j.nzb = true ∧ parFailed j.nzb = false ∧ startJob o true j = enterStage .unpacking j) ∨
    (∃ k : Job, (k = j ∨ k = { j with nzb := { j.nzb with unpack := .skipped } }) ∧
      ((toCleanup o j.nzb = true ∧ startJob o true j = enterStage .cleaningUp k) ∨
       (toMove j.nzb = true ∧ startJob o true j = enterStage .moving k) ∨
       (startJob o true j = enterStage .executingScript k))) := by
  by_cases c1 : j.nzb.parRename = .none ∧ j.nzb.deleted = false ∧ o.parRename = true
  · exact Or.inl ⟨c1.1, by unfold startJob; exact if_pos c1⟩
  refine Or.inr ?_
  by_cases c2 : j.nzb.par = .none ∧ j.nzb.deleted = false
  · by_cases c3 : j.nzb.disk.pars = true
    · refine Or.inl ⟨c2.1, c2.2, ?_⟩
      unfold startJob
      dsimp only
      rw [if_neg c1, if_pos c2, if_pos c3, if_neg nofun]
      rfl
    · refine Or.inr (Or.inl ⟨c2.1, ?_⟩)
      unfold startJob
      dsimp only
      rw [if_neg c1, if_pos c2, if_neg c3]
  refine Or.inr (Or.inr ?_)
  by_cases c4 : hopeless o j.nzb = true
  · refine Or.inl ⟨?_, ?_⟩
    · simp only [hopeless, Bool.and_eq_true, beq_iff_eq] at c4
      exact c4.1.1
    · unfold startJob
      dsimp only
      rw [if_neg c1, if_neg c2, if_pos c4]
  refine Or.inr ?_
  by_cases c5 : j.nzb.par = .skipped ∧ j.nzb.disk.damaged = true ∧ j.nzb.disk.pars = true
  · refine Or.inl ⟨c5.1, ?_⟩
    unfold startJob
    dsimp only
    rw [if_neg c1, if_neg c2, if_neg c4, if_pos c5]
  by_cases c6 : j.nzb.rarRename = .none ∧ toUnpack j.nzb = true ∧ o.rarRename = true
  · refine Or.inr (Or.inl ?_)
    unfold startJob
    dsimp only
    rw [if_neg c1, if_neg c2, if_neg c4, if_neg c5, if_pos c6]
  by_cases c7 : j.nzb.par = .skipped ∧ j.nzb.deleted = false ∧ o.parCheck = .auto ∧
      j.nzb.disk.archives = false ∧ j.nzb.disk.pars = true
  · refine Or.inl ⟨c7.1, ?_⟩
    unfold startJob
    dsimp only
    rw [if_neg c1, if_neg c2, if_neg c4, if_neg c5, if_neg c6, if_pos c7]
  refine Or.inr (Or.inr ?_)
  have hs : startJob o true j = startLast o j := by
    unfold startJob
    dsimp only
    rw [if_neg c1, if_neg c2, if_neg c4, if_neg c5, if_neg c6, if_neg c7]
  rw [hs]
  unfold startLast
  dsimp only
  by_cases c8 : (toUnpack j.nzb && !parFailed j.nzb) = true
  · rw [if_pos c8]
    simp only [Bool.and_eq_true, Bool.not_eq_true'] at c8
    exact Or.inl ⟨c8.1, c8.2, rfl⟩
  rw [if_neg c8]
  refine Or.inr ⟨if toUnpack j.nzb = true then
    { j with nzb := { j.nzb with unpack := .skipped } } else j, ?_, ?_⟩
  · split
    · exact Or.inr rfl
    · exact Or.inl rfl
  · by_cases c9 : toCleanup o j.nzb = true
    · rw [if_pos c9]; exact Or.inl ⟨c9, rfl⟩
    · rw [if_neg c9]
      by_cases c10 : toMove j.nzb = true
      · rw [if_pos c10]; exact Or.inr (Or.inl ⟨c10, rfl⟩)
      · rw [if_neg c10]; exact Or.inr (Or.inr rfl)

/-- What the start of the next stage leaves as it is. -/
theorem start_post {o : Opts} {j : Job} (hi : Inv o j) :
    (startJob o true j).post.cancelled = false ∧ (startJob o true j).post.stage ≠ .finished ∧
    ((startJob o true j).post.working = true → (startJob o true j).post.requestPar = false) ∧
    (startJob o true j).post.unpackTried = j.post.unpackTried := by
  have hq : j.post.stage ≠ .finished := by rw [hi.queued]; exact nofun
  rcases start_cases o j with h | h | h | h | h | h | h | ⟨k, hk, h⟩
  · rw [h.2]; exact ⟨hi.alive, nofun, fun _ => hi.noReq, rfl⟩
  · rw [h.2.2]; exact ⟨hi.alive, nofun, fun _ => hi.noReq, rfl⟩
  · rw [h.2]; exact ⟨hi.alive, hq, fun _ => hi.noReq, rfl⟩
  · rw [h.2]; exact ⟨hi.alive, hq, fun _ => hi.noReq, rfl⟩
  · rw [h.2]; exact ⟨hi.alive, hq, fun hw => absurd (show j.post.working = true from hw)
      (by rw [hi.idle]; exact nofun), rfl⟩
  · rw [h]; exact ⟨hi.alive, nofun, fun _ => hi.noReq, rfl⟩
  · rw [h.2.2]; exact ⟨hi.alive, nofun, fun _ => hi.noReq, rfl⟩
  · have hp : k.post = j.post := by rcases hk with hk | hk <;> rw [hk]
    have ha : k.post.cancelled = false := by rw [hp]; exact hi.alive
    have hr : k.post.requestPar = false := by rw [hp]; exact hi.noReq
    have ht : k.post.unpackTried = j.post.unpackTried := by rw [hp]
    rcases h with h | h | h
    · rw [h.2]; exact ⟨ha, nofun, fun _ => hr, ht⟩
    · rw [h.2]; exact ⟨ha, nofun, fun _ => hr, ht⟩
    · rw [h]; exact ⟨ha, nofun, fun _ => hr, ht⟩

theorem unpackRun_post (o : Opts) (w : Work) (j : Job) :
    (unpackRun o w j).post.stage = j.post.stage ∧
    (unpackRun o w j).post.cancelled = j.post.cancelled := by
  unfold unpackRun unpackCompleted requestParCheck
  dsimp only
  repeat' split
  all_goals exact ⟨rfl, rfl⟩

/-- A stage other than the scripts ends: the job isn't finished. -/
theorem finish_post {o : Opts} {w : Work} {j : Job} (h : j.post.stage ≠ .executingScript) :
    (finish o w j).post.stage = j.post.stage ∧
    (finish o w j).post.cancelled = j.post.cancelled := by
  unfold finish
  split
  · exact ⟨rfl, rfl⟩
  · exact ⟨rfl, rfl⟩
  · exact ⟨rfl, rfl⟩
  · exact ⟨rfl, rfl⟩
  · exact ⟨rfl, rfl⟩
  · exact ⟨rfl, rfl⟩
  · exact unpackRun_post o w j
  · exact ⟨rfl, rfl⟩
  · exact ⟨rfl, rfl⟩
  · rename_i hs; exact absurd hs h
  · exact ⟨rfl, rfl⟩

theorem checkRequestPar_stage (o : Opts) (j : Job) :
    (checkRequestPar o j).post.cancelled = j.post.cancelled ∧
    ((checkRequestPar o j).post.stage = j.post.stage ∨
      ((checkRequestPar o j).nzb.par = .manual ∧ (checkRequestPar o j).nzb.disk.files = true)) := by
  unfold checkRequestPar
  split
  · exact ⟨rfl, Or.inl rfl⟩
  · split
    · refine ⟨rfl, ?_⟩
      dsimp only
      by_cases h : j.nzb.disk.files = true
      · exact Or.inr ⟨rfl, h⟩
      · rw [if_neg h]; exact Or.inl rfl
    · exact ⟨rfl, Or.inl rfl⟩

/-- What `turn` makes of the job. -/
theorem turn_eq (o : Opts) (w : Work) (j : Job) : turn o w j =
    cleanupJob (checkRequestPar o (if (startJob o true j).post.working then
      finish o w (cancelJob w (startJob o true j)) else startJob o true j)) := rfl

theorem turn_enter {o : Opts} {w : Work} {j k : Job} {s : Stage}
    (h : startJob o true j = enterStage s k) :
    turn o w j = cleanupJob (checkRequestPar o (finish o w (cancelJob w (enterStage s k)))) := by
  rw [turn_eq, h]
  rfl

theorem cancelJob_post (w : Work) (j : Job) : (cancelJob w j).post.stage = j.post.stage ∧
    (cancelJob w j).nzb = j.nzb ∧ (cancelJob w j).post.requestPar = j.post.requestPar ∧
    (cancelJob w j).post.cancelled = (w.cancel || j.post.cancelled) ∧
    (cancelJob w j).post.unpackTried = j.post.unpackTried := by
  unfold cancelJob
  cases w.cancel <;> exact ⟨rfl, rfl, rfl, rfl, rfl⟩

theorem entered_stage {o : Opts} {j : Job} {s : Stage} (he : entered o j = some s) :
    (startJob o true j).post.stage = s ∧ (startJob o true j).post.working = true := by
  unfold entered at he
  dsimp only at he
  by_cases h : (startJob o true j).post.working = true
  · rw [if_pos h] at he
    injection he with he
    exact ⟨he, h⟩
  · rw [if_neg h] at he; exact nomatch he

theorem left_finished {j j' : Job} (h : cleanupJob j = .left j') :
    j' = j ∧ (j.post.stage = .finished ∨ j.post.cancelled = true) := by
  unfold cleanupJob at h
  split at h
  · exact nomatch h
  · split at h
    · rename_i hc
      injection h with h
      exact ⟨h.symm, hc⟩
    · exact nomatch h

/-! ## The scripts -/

theorem finish_script {o : Opts} {w : Work} {j : Job} (h : j.post.stage = .executingScript) :
    finish o w j = finishScript w j := by
  unfold finish; rw [h]

theorem checkRequestPar_finished (o : Opts) (j : Job) (h : j.post.stage = .finished)
    (hw : j.post.working = false) :
    (checkRequestPar o j).post.stage = .finished ∧ (checkRequestPar o j).post.working = false := by
  unfold checkRequestPar
  split
  · exact ⟨h, rfl⟩
  · split
    · refine ⟨?_, rfl⟩
      dsimp only
      split
      · rfl
      · exact h
    · exact ⟨h, hw⟩

theorem cleanupJob_finished (j : Job) (h : j.post.stage = .finished)
    (hw : j.post.working = false) : cleanupJob j = .left j := by
  unfold cleanupJob
  rw [if_neg (by rw [hw]; exact nofun), if_pos (Or.inl h)]

/-- The turn in which the scripts are executed. -/
theorem turn_script_eq {o : Opts} {w : Work} {j : Job}
    (he : entered o j = some .executingScript) : turn o w j =
      .left (checkRequestPar o (finishScript w (cancelJob w (startJob o true j)))) := by
  obtain ⟨h1, h2⟩ := entered_stage he
  rw [turn_eq, if_pos h2, finish_script (by rw [(cancelJob_post w _).1]; exact h1)]
  have := checkRequestPar_finished o (finishScript w (cancelJob w (startJob o true j))) rfl rfl
  exact cleanupJob_finished _ this.1 this.2

/-- The post-processing is completed by the scripts only, if it isn't cancelled and the download
doesn't wait for a manual par-check. -/
theorem left_how {o : Opts} {w : Work} {j j' : Job} (hi : Inv o j) (h : turn o w j = .left j') :
    entered o j = some .executingScript ∨ j'.post.cancelled = true ∨
    (j'.nzb.par = .manual ∧ j'.nzb.disk.files = true) := by
  by_cases he : entered o j = some .executingScript
  · exact Or.inl he
  refine Or.inr ?_
  rw [turn_eq] at h
  obtain ⟨h1, h2⟩ := left_finished h
  obtain ⟨s1, s2, -, -⟩ := start_post hi
  rcases h2 with h2 | h2
  · refine Or.inr ?_
    have hst : (if (startJob o true j).post.working then
        finish o w (cancelJob w (startJob o true j)) else startJob o true j).post.stage ≠
          .finished := by
      by_cases hw : (startJob o true j).post.working = true
      · rw [if_pos hw]
        have : (cancelJob w (startJob o true j)).post.stage ≠ .executingScript := by
          rw [(cancelJob_post w _).1]
          intro hs
          apply he
          unfold entered
          dsimp only
          rw [if_pos hw, hs]
        rw [(finish_post this).1, (cancelJob_post w _).1]
        exact s2
      · rw [if_neg hw]; exact s2
    rcases (checkRequestPar_stage o _).2 with h3 | h3
    · rw [h3] at h2; exact absurd h2 hst
    · rw [h1]; exact h3
  · rw [h1]; exact Or.inl h2

theorem course_scripts {o : Opts} : ∀ (ws : List Work) (j : Job), Inv o j →
    (∀ j', (course o ws j).2 = .again j' → .executingScript ∉ (course o ws j).1) ∧
    (∀ j', (course o ws j).2 = .left j' →
      (∃ pre, (course o ws j).1 = pre ++ [.executingScript] ∧ .executingScript ∉ pre) ∨
      (.executingScript ∉ (course o ws j).1 ∧
        (j'.post.cancelled = true ∨ (j'.nzb.par = .manual ∧ j'.nzb.disk.files = true))))
  | [], j, hi => ⟨fun _ _ => List.not_mem_nil, fun _ h => nomatch h⟩
  | w :: ws, j, hi => by
    have hg := good_turn hi w
    unfold course
    cases ht : turn o w j with
    | busy k => rw [ht] at hg; exact hg.elim
    | left k =>
      refine ⟨(fun _ h => nomatch h), fun j' h => ?_⟩
      injection h with h
      subst h
      rcases left_how hi ht with h | h
      · dsimp only
        rw [h]
        exact Or.inl ⟨[], rfl, List.not_mem_nil⟩
      · by_cases he : entered o j = some .executingScript
        · dsimp only
          rw [he]
          exact Or.inl ⟨[], rfl, List.not_mem_nil⟩
        · refine Or.inr ⟨?_, h⟩
          intro hm
          exact he (Option.mem_toList.mp hm)
    | again k =>
      rw [ht] at hg
      have he : Stage.executingScript ∉ (entered o j).toList := by
        intro hm
        have := turn_script_eq (w := w) (Option.mem_toList.mp hm)
        rw [ht] at this
        exact nomatch this
      obtain ⟨i1, i2⟩ := course_scripts ws k hg.1
      dsimp only
      refine ⟨fun j' h => ?_, fun j' h => ?_⟩
      · intro hm
        rcases List.mem_append.mp hm with hm | hm
        · exact he hm
        · exact i1 j' h hm
      · rcases i2 j' h with ⟨pre, h1, h2⟩ | ⟨h1, h2⟩
        · refine Or.inl ⟨(entered o j).toList ++ pre, ?_, ?_⟩
          · rw [h1, List.append_assoc]
          · intro hm
            rcases List.mem_append.mp hm with hm | hm
            · exact he hm
            · exact h2 hm
        · refine Or.inr ⟨?_, h2⟩
          intro hm
          rcases List.mem_append.mp hm with hm | hm
          · exact he hm
          · exact h1 hm

/-- **The scripts are executed once, and last.** When the post-processing of a download is completed
its scripts were executed exactly once and after everything else; they were left out only if the
post-processing was cancelled by the user or if the user has to start the par-check themselves and
files are left for download. As long as it isn't completed no script was executed. -/
theorem scripts_once_and_last (o : Opts) (n : Nzb) (hf : Fresh o n) (ws : List Work) (j : Job) :
    ((course o ws (enter o n)).2 = .again j → .executingScript ∉ (course o ws (enter o n)).1) ∧
    ((course o ws (enter o n)).2 = .left j →
      (∃ pre, (course o ws (enter o n)).1 = pre ++ [.executingScript] ∧ .executingScript ∉ pre) ∨
      (.executingScript ∉ (course o ws (enter o n)).1 ∧
        (j.post.cancelled = true ∨ (j.nzb.par = .manual ∧ j.nzb.disk.files = true)))) :=
  ⟨(course_scripts ws _ (inv_enter hf)).1 j, (course_scripts ws _ (inv_enter hf)).2 j⟩

/-- **Violation: the par-check requested by a script is never made.** The exit code 92 of a
script requests a par-check, and the program confirms the request in its messages
(extension/PostScript.cpp:201-217). Whenever a script ends with this code for a download which wasn't
par-checked, the post-processing is completed at once, the download is left without a par-check. -/
theorem script_parcheck_lost (o : Opts) (n : Nzb) (hf : Fresh o n) (j : Job) (hr : Reach o n j)
    (he : entered o j = some .executingScript) (hu : j.nzb.par.unchecked = true) (w : Work)
    (_hw : w.scriptPar = true) :
    ∃ j', turn o w j = .left j' ∧
      (j'.nzb.par = .none ∨ j'.nzb.par = .skipped ∨ j'.nzb.par = .manual) := by
  have hi := reach_inv hf hr
  refine ⟨_, turn_script_eq he, ?_⟩
  have hp : (finishScript w (cancelJob w (startJob o true j))).nzb.par.unchecked = true := by
    show (cancelJob w (startJob o true j)).nzb.par.unchecked = true
    rw [(cancelJob_post w _).2.1]
    have hs := (entered_stage he).1
    rcases start_cases o j with h | h | h | h | h | h | h | ⟨k, hk, h⟩
    · rw [h.2]; exact hu
    · rw [h.2.2]; exact hu
    · rw [h.2]; rfl
    · rw [h.2] at hs
      have hs : j.post.stage = .executingScript := hs
      rw [hi.queued] at hs; exact nomatch hs
    · rw [h.2]; exact hu
    · rw [h]; exact hu
    · rw [h.2.2]; exact hu
    · have hk' : k.nzb.par = j.nzb.par := by rcases hk with hk | hk <;> rw [hk]
      rcases h with h | h | h
      · rw [h.2]; show k.nzb.par.unchecked = true; rw [hk']; exact hu
      · rw [h.2]; show k.nzb.par.unchecked = true; rw [hk']; exact hu
      · rw [h]; show k.nzb.par.unchecked = true; rw [hk']; exact hu
  unfold checkRequestPar
  split
  · exact Or.inl rfl
  · split
    · exact Or.inr (Or.inr rfl)
    · cases hq : (finishScript w (cancelJob w (startJob o true j))).nzb.par with
      | none => exact Or.inl rfl
      | skipped => exact Or.inr (Or.inl rfl)
      | failure => rw [hq] at hp; exact nomatch hp
      | success => rw [hq] at hp; exact nomatch hp
      | possible => rw [hq] at hp; exact nomatch hp
      | manual => rw [hq] at hp; exact nomatch hp

/-! ## A failed repair -/

theorem unpackRun_par (o : Opts) (w : Work) (j : Job) : (unpackRun o w j).nzb.par = j.nzb.par := by
  unfold unpackRun unpackCompleted requestParCheck
  dsimp only
  repeat' split
  all_goals rfl

theorem turn_failed {o : Opts} {w : Work} {j : Job} (hi : Inv o j) (hp : j.nzb.par = .failure) :
    (turn o w j).job.nzb.par = .failure ∧
    ∀ s, entered o j = some s → s = .parRenaming ∨ s = .rarRenaming ∨ s = .executingScript := by
  have key : ∀ (k : Job), k.nzb.par = .failure → k.post.requestPar = false →
      (cleanupJob (checkRequestPar o k)).job.nzb.par = .failure := by
    intro k h1 h2
    rw [(cleanupJob_job _).1, checkRequestPar_noReq o k h2]
    exact h1
  have pf : parFailed j.nzb = true := by unfold parFailed; rw [hp]; rfl
  have stage : ∀ {k : Job} {s : Stage}, startJob o true j = enterStage s k → ∀ t,
      entered o j = some t → t = s := by
    intro k s h t ht
    have := (entered_stage ht).1
    rw [h] at this
    exact this.symm
  have nope : ∀ {q : Par}, j.nzb.par = q → q ≠ .failure → False := fun h1 h2 => h2 (h1 ▸ hp)
  rcases start_cases o j with h | h | h | h | h | h | h | ⟨k, hk, h⟩
  · refine ⟨?_, fun s hs => Or.inl (stage h.2 s hs)⟩
    have e : finish o w (cancelJob w (enterStage .parRenaming j)) =
        finishParRename w (cancelJob w (enterStage .parRenaming j)) := by
      unfold finish; rw [(cancelJob_post w _).1]; rfl
    rw [turn_enter h.2, e]
    refine key _ ?_ ?_
    · show (cancelJob w (enterStage .parRenaming j)).nzb.par = .failure
      rw [(cancelJob_post w _).2.1]; exact hp
    · show ((cancelJob w (enterStage .parRenaming j)).post.requestPar ||
        (w.missed && (cancelJob w (enterStage .parRenaming j)).nzb.par.unchecked)) = false
      rw [(cancelJob_post w _).2.1, (cancelJob_post w _).2.2.1]
      show (j.post.requestPar || (w.missed && j.nzb.par.unchecked)) = false
      rw [hi.noReq, hp]
      cases w.missed <;> rfl
  · exact (nope h.1 nofun).elim
  · exact (nope h.1 nofun).elim
  · exact (nope h.1 nofun).elim
  · exact (nope h.1 nofun).elim
  · refine ⟨?_, fun s hs => Or.inr (Or.inl (stage h s hs))⟩
    have e : finish o w (cancelJob w (enterStage .rarRenaming j)) =
        finishRarRename w (cancelJob w (enterStage .rarRenaming j)) := by
      unfold finish; rw [(cancelJob_post w _).1]; rfl
    rw [turn_enter h, e]
    refine key _ ?_ ?_
    · show (cancelJob w (enterStage .rarRenaming j)).nzb.par = .failure
      rw [(cancelJob_post w _).2.1]; exact hp
    · show (cancelJob w (enterStage .rarRenaming j)).post.requestPar = false
      rw [(cancelJob_post w _).2.2.1]; exact hi.noReq
  · rw [pf] at h; exact nomatch h.2.1
  · have k1 : k.nzb.par = .failure := by rcases hk with hk | hk <;> rw [hk] <;> exact hp
    have k2 : k.post.requestPar = false := by rcases hk with hk | hk <;> rw [hk] <;> exact hi.noReq
    rcases h with h | h | h
    · have := h.1
      unfold toCleanup at this
      rw [hp] at this
      simp at this
    · have := h.1
      unfold toMove at this
      rw [hp] at this
      simp at this
    · refine ⟨?_, fun s hs => Or.inr (Or.inr (stage h s hs))⟩
      rw [turn_enter h, finish_script (by rw [(cancelJob_post w _).1]; rfl)]
      refine key _ ?_ ?_
      · show (cancelJob w (enterStage .executingScript k)).nzb.par = .failure
        rw [(cancelJob_post w _).2.1]; exact k1
      · show ((cancelJob w (enterStage .executingScript k)).post.requestPar ||
          (w.scriptPar && (cancelJob w (enterStage .executingScript k)).nzb.par.unchecked)) = false
        rw [(cancelJob_post w _).2.1, (cancelJob_post w _).2.2.1]
        show (k.post.requestPar || (w.scriptPar && k.nzb.par.unchecked)) = false
        rw [k2, k1]
        cases w.scriptPar <;> rfl

theorem course_failed {o : Opts} : ∀ (ws : List Work) (j : Job), Inv o j → j.nzb.par = .failure →
    (course o ws j).2.job.nzb.par = .failure ∧
    ∀ s ∈ (course o ws j).1, s = .parRenaming ∨ s = .rarRenaming ∨ s = .executingScript
  | [], j, _, hp => ⟨hp, fun _ h => nomatch h⟩
  | w :: ws, j, hi, hp => by
    have hg := good_turn hi w
    obtain ⟨h1, h2⟩ := turn_failed (w := w) hi hp
    unfold course
    cases ht : turn o w j with
    | busy k => rw [ht] at hg; exact hg.elim
    | left k =>
      rw [ht] at h1
      exact ⟨h1, fun s hs => h2 s (Option.mem_toList.mp hs)⟩
    | again k =>
      rw [ht] at hg h1
      obtain ⟨i1, i2⟩ := course_failed ws k hg.1 h1
      refine ⟨i1, fun s hs => ?_⟩
      rcases List.mem_append.mp hs with hs | hs
      · exact h2 s (Option.mem_toList.mp hs)
      · exact i2 s hs

/-- **A download which couldn't be repaired is left alone.** Once a par-check has failed, or the
download was found hopeless because of its health, the download stays marked as failed, and nothing
is unpacked, cleaned up or moved out of the intermediate directory any more. -/
theorem failed_download_untouched (o : Opts) (n : Nzb) (hf : Fresh o n) (j : Job)
    (hr : Reach o n j) (hp : j.nzb.par = .failure) (ws : List Work) :
    (course o ws j).2.job.nzb.par = .failure ∧
    .unpacking ∉ (course o ws j).1 ∧ .cleaningUp ∉ (course o ws j).1 ∧
    .moving ∉ (course o ws j).1 := by
  obtain ⟨h1, h2⟩ := course_failed ws j (reach_inv hf hr) hp
  refine ⟨h1, fun h => ?_, fun h => ?_, fun h => ?_⟩
  all_goals rcases h2 _ h with h | h | h <;> exact nomatch h

/-! ## When the files are moved and cleaned up -/

/-- **Only what is known to be good is moved and cleaned up.** The files are moved into the
destination directory, and files are deleted by ExtCleanupDisk, only if unpack hasn't failed, the
repair hasn't failed, and if something tells that the files are intact: a successful unpack,
a par-check (which has found the download intact, or repaired, or, for the move only, repairable),
or a download without any failed article. Unpack isn't pending any more at this point. -/
theorem move_and_cleanup_only_good (o : Opts) (n : Nzb) (hf : Fresh o n) (j : Job)
    (hr : Reach o n j) :
    (entered o j = some .moving →
      j.nzb.unpack ≠ .failure ∧ j.nzb.unpack ≠ .space ∧ j.nzb.unpack ≠ .password ∧
      j.nzb.par ≠ .failure ∧ j.nzb.par ≠ .manual ∧
      (j.nzb.unpack = .success ∨ j.nzb.par = .success ∨ j.nzb.par = .possible ∨
        1000 ≤ j.nzb.disk.health) ∧
      (j.nzb.unpack = .none → j.nzb.want = false)) ∧
    (entered o j = some .cleaningUp →
      j.nzb.unpack ≠ .failure ∧ j.nzb.unpack ≠ .space ∧ j.nzb.unpack ≠ .password ∧
      j.nzb.par ≠ .failure ∧
      (j.nzb.unpack = .success ∨ j.nzb.par = .success ∨ 1000 ≤ j.nzb.disk.health) ∧
      (j.nzb.unpack = .none → j.nzb.deleted = true)) := by
  have hi := reach_inv hf hr
  have stage : ∀ {k : Job} {s t : Stage}, startJob o true j = enterStage s k →
      entered o j = some t → s = t := by
    intro k s t h ht
    have := (entered_stage ht).1
    rw [h] at this
    exact this
  have idle : ∀ {k : Job} {t : Stage}, startJob o true j = k → k.post.working = false →
      entered o j = some t → False := by
    intro k t h hw ht
    have := (entered_stage ht).2
    rw [h, hw] at this
    exact nomatch this
  rcases start_cases o j with h | h | h | h | h | h | h | ⟨k, hk, h⟩
  · exact ⟨(fun he => nomatch (stage h.2 he)), (fun he => nomatch (stage h.2 he))⟩
  · refine ⟨fun he => ?_, fun he => ?_⟩
    all_goals
      have := (entered_stage he).1
      rw [h.2.2] at this
      exact nomatch this
  · exact ⟨fun he => (idle h.2 hi.idle he).elim, fun he => (idle h.2 hi.idle he).elim⟩
  · exact ⟨fun he => (idle h.2 hi.idle he).elim, fun he => (idle h.2 hi.idle he).elim⟩
  · exact ⟨fun he => (idle h.2 hi.idle he).elim, fun he => (idle h.2 hi.idle he).elim⟩
  · exact ⟨(fun he => nomatch (stage h he)), (fun he => nomatch (stage h he))⟩
  · exact ⟨(fun he => nomatch (stage h.2.2 he)), (fun he => nomatch (stage h.2.2 he))⟩
  · rcases h with h | h | h
    · refine ⟨(fun he => nomatch (stage h.2 he)), fun _ => ?_⟩
      have hc := h.1
      unfold toCleanup toUnpack at hc
      revert hc
      cases j.nzb.unpack <;> cases j.nzb.par <;> cases j.nzb.want <;> cases j.nzb.deleted <;>
        simp <;> omega
    · refine ⟨fun _ => ?_, (fun he => nomatch (stage h.2 he))⟩
      have hc := h.1
      unfold toMove toUnpack at hc
      revert hc
      cases j.nzb.unpack <;> cases j.nzb.par <;> cases j.nzb.want <;> cases j.nzb.deleted <;>
        simp <;> omega
    · exact ⟨(fun he => nomatch (stage h he)), (fun he => nomatch (stage h he))⟩

/-! ## Giving up unpack -/

theorem checkRequestPar_unpack (o : Opts) (j : Job) :
    (checkRequestPar o j).nzb.unpack = j.nzb.unpack := by
  unfold checkRequestPar
  split
  · rfl
  · split <;> rfl

/-- **Unpack is given up only after a par-check.** If there are par2-files and the status of the
download becomes "unpack failed" then one of the following is the case: the unpacker couldn't be
started or was stopped by the user; everything was unpacked but couldn't be moved into the
destination directory; the only archives have foreign extensions; or a par-check was made, and it
has looked at every block of every file (`parFull`) or was itself a consequence of an earlier
attempt to unpack (which now isn't repeated, since nothing was repaired). -/
theorem unpack_given_up_after_check (o : Opts) (n : Nzb) (hf : Fresh o n) (j : Job)
    (hr : Reach o n j) (w : Work) (he : entered o j = some .unpacking)
    (hpars : j.nzb.disk.pars = true) (hx : (turn o w j).job.nzb.unpack = .failure) :
    w.unpack.startErr = true ∨ w.unpack.stopped = true ∨
    (w.unpack.ok = true ∧ w.unpack.movedOk = false) ∨
    (w.unpack.hasFiles = false ∧ w.unpack.hidden = true) ∨
    (j.nzb.par.unchecked = false ∧ (j.nzb.parFull = true ∨ j.post.unpackTried = true)) := by
  have hi := reach_inv hf hr
  have stage : ∀ {k : Job} {s t : Stage}, startJob o true j = enterStage s k →
      entered o j = some t → s = t := by
    intro k s t h ht
    have := (entered_stage ht).1
    rw [h] at this
    exact this
  have idle : ∀ {k : Job} {t : Stage}, startJob o true j = k → k.post.working = false →
      entered o j = some t → False := by
    intro k t h hw ht
    have := (entered_stage ht).2
    rw [h, hw] at this
    exact nomatch this
  have main : toUnpack j.nzb = true ∧ startJob o true j = enterStage .unpacking j := by
    rcases start_cases o j with h | h | h | h | h | h | h | ⟨k, hk, h⟩
    · exact nomatch (stage h.2 he)
    · have := (entered_stage he).1
      rw [h.2.2] at this
      exact nomatch this
    · exact (idle h.2 hi.idle he).elim
    · exact (idle h.2 hi.idle he).elim
    · exact (idle h.2 hi.idle he).elim
    · exact nomatch (stage h he)
    · exact ⟨h.1, h.2.2⟩
    · rcases h with h | h | h
      · exact nomatch (stage h.2 he)
      · exact nomatch (stage h.2 he)
      · exact nomatch (stage h he)
  obtain ⟨hu, hs⟩ := main
  have hu0 : j.nzb.unpack = .none := by
    simp only [toUnpack, Bool.and_eq_true, beq_iff_eq] at hu
    exact hu.1.2
  have hwant : j.nzb.want = true := by
    simp only [toUnpack, Bool.and_eq_true] at hu
    exact hu.1.1
  have e : finish o w (cancelJob w (enterStage .unpacking j)) =
      finishUnpack o w (cancelJob w (enterStage .unpacking j)) := by
    unfold finish; rw [(cancelJob_post w _).1]; rfl
  rw [turn_enter hs, e, (cleanupJob_job _).1, checkRequestPar_unpack] at hx
  have hx : (unpackRun o w (cancelJob w (enterStage .unpacking j))).nzb.unpack = .failure := hx
  have k1 : (cancelJob w (enterStage .unpacking j)).nzb = j.nzb := (cancelJob_post w _).2.1
  have k2 : (cancelJob w (enterStage .unpacking j)).post.unpackTried = j.post.unpackTried :=
    (cancelJob_post w _).2.2.2.2
  generalize cancelJob w (enterStage .unpacking j) = k at hx k1 k2
  -- a job which is here although a par-check is due was checked
  have due : j.post.unpackTried = true → j.nzb.par.unchecked = false := by
    intro ht
    cases hpu : j.nzb.par.unchecked with
    | false => rfl
    | true =>
      obtain ⟨d1, d2, d3, d4⟩ := hi.due (Or.inr ht) hpu
      exfalso
      have hc1 : ¬(j.nzb.parRename = .none ∧ j.nzb.deleted = false ∧ o.parRename = true) := by
        rintro ⟨a, -, b⟩
        rcases d4 with d4 | d4
        · exact d4 a
        · rw [d4] at b; exact nomatch b
      have : startJob o true j =
          ⟨j.nzb, { j.post with working := true, stage := .loadingPars, needPar := false }⟩ := by
        unfold startJob
        dsimp only
        rw [if_neg hc1, if_pos ⟨d1, d3⟩, if_pos d2, if_neg nofun]
        rfl
      have h3 := (entered_stage he).1
      rw [this] at h3
      exact nomatch h3
  unfold unpackRun at hx
  dsimp only at hx
  by_cases h1 : (k.post.unpackTried && !k.post.parRepaired &&
      (k.nzb.password || !o.passFile || k.post.passTried)) = true
  · simp only [Bool.and_eq_true] at h1
    have ht : j.post.unpackTried = true := by rw [← k2]; exact h1.1.1
    exact Or.inr (Or.inr (Or.inr (Or.inr ⟨due ht, Or.inr ht⟩)))
  rw [if_neg h1] at hx
  by_cases h2 : (k.nzb.want && w.unpack.hasFiles) = true
  · rw [if_pos h2] at hx
    unfold unpackCompleted at hx
    dsimp only at hx
    by_cases h3 : (w.unpack.ok && w.unpack.movedOk) = true
    · rw [if_pos h3] at hx; exact nomatch hx
    rw [if_neg h3] at hx
    by_cases h4 : (!w.unpack.ok && (k.nzb.par.unchecked || !k.nzb.parFull) &&
      !w.unpack.startErr && !w.unpack.spaceErr && !w.unpack.passErr && !w.unpack.stopped &&
      k.nzb.disk.pars) = true
    · rw [if_pos h4] at hx
      have hx : k.nzb.unpack = .failure := hx
      rw [k1, hu0] at hx; exact nomatch hx
    rw [if_neg h4] at hx
    have hx : unpackFailure w.unpack = .failure := hx
    unfold unpackFailure at hx
    rw [k1, hpars] at h4
    revert h3 h4 hx
    cases w.unpack.ok <;> cases w.unpack.movedOk <;> cases w.unpack.startErr <;>
      cases w.unpack.spaceErr <;> cases w.unpack.passErr <;> cases w.unpack.stopped <;>
      cases j.nzb.par.unchecked <;> cases j.nzb.parFull <;> simp
  · rw [if_neg h2] at hx
    have hnf : w.unpack.hasFiles = false := by
      rw [k1, hwant, Bool.true_and] at h2
      exact Bool.eq_false_iff.mpr h2
    rw [if_pos (by rw [k1]; exact hwant)] at hx
    by_cases h3 : k.nzb.par.unchecked = true ∧
        (k.nzb.parRename = .none ∨ k.nzb.parRename = .skipped) ∧ k.nzb.disk.pars = true
    · rw [if_pos h3] at hx
      have hx : k.nzb.unpack = .failure := hx
      rw [k1, hu0] at hx; exact nomatch hx
    rw [if_neg h3] at hx
    by_cases h4 : w.unpack.hidden = true
    · exact Or.inr (Or.inr (Or.inr (Or.inl ⟨hnf, h4⟩)))
    · rw [if_neg h4] at hx; exact nomatch hx

/-! ## Violations and examples -/

/-- Nothing happens in the stage; what is seen on disk is `d`. -/
def quiet (d : Disk) : Work :=
  ⟨false, false, false, false, none, none, false,
    ⟨false, false, false, false, false, false, false, false, false, false⟩, true, false, false, d, 0⟩

/-- A directory with par2-files and archives, everything was downloaded. -/
def fullDisk : Disk := ⟨true, true, false, 0, false, 1000, 900, false⟩

def freshNzb (d : Disk) : Nzb :=
  ⟨false, true, false, .none, .none, false, .none, .none, .none, .none, d⟩

/-- The default options. -/
def defaultOpts : Opts := ⟨.auto, true, true, true, true, true, false⟩

/-- The normal course: unpack without a par-check. -/
example : course defaultOpts
      [quiet fullDisk, quiet fullDisk,
       { quiet fullDisk with unpack := ⟨true, false, true, false, false, false, false, false, false, true⟩ },
       quiet fullDisk, quiet { fullDisk with inter := true }, quiet fullDisk, quiet fullDisk]
      (enter defaultOpts (freshNzb fullDisk)) =
    ([.parRenaming, .rarRenaming, .unpacking, .parRenaming, .cleaningUp, .moving, .executingScript],
     .left ⟨{ freshNzb fullDisk with par := .skipped, unpack := .success, parRename := .nothing,
                                     rarRename := .nothing, cleanup := .success, move := .success },
            { stage := .finished }⟩) := by
  decide +kernel

/-- Unpack fails, the repair fails, nothing is moved; the hypotheses of `failed_download_untouched`
are met. -/
example : Reach defaultOpts (freshNzb fullDisk)
    ⟨{ freshNzb fullDisk with par := .failure, parRename := .nothing, rarRename := .nothing,
                              parFull := false },
     { unpackTried := true, forceRepair := true, lastUnpack := .failure }⟩ :=
  ⟨[quiet fullDisk, quiet fullDisk,
    { quiet fullDisk with unpack := ⟨true, false, false, false, false, false, false, false, false, false⟩ },
    quiet fullDisk], by decide +kernel⟩

/-- **Violation: post-processing never ends with ParCheck=manual.** A download was queued for
post-processing with ParCheck=force and the option was changed to "manual" before it was processed
(it is loaded from disk with the par-status "none" then). Its par-check repairs it by comparison of
checksums; when the unpack fails after that a full par-check is requested, but the request is
ignored because of the option, and unpack is started again, and again: if it keeps failing, the
number of attempts is unlimited. -/
theorem manual_parcheck_loops :
    ∃ (o : Opts) (n : Nzb) (w1 w2 : Work), o.parCheck = .manual ∧ n.par = .none ∧
      ∀ k, (course o (w1 :: List.replicate k w2) ⟨n, {}⟩).1 =
        .loadingPars :: List.replicate k .unpacking ∧
        ∃ j, (course o (w1 :: List.replicate k w2) ⟨n, {}⟩).2 = .again j := by
  refine ⟨⟨.manual, false, false, true, true, false, false⟩, freshNzb fullDisk,
    { quiet fullDisk with check1 := some (.repaired, true) },
    { quiet fullDisk with unpack := ⟨true, false, false, false, false, false, false, false, false, false⟩ },
    rfl, rfl, ?_⟩
  -- the state before every further attempt
  have loop : ∀ k (j : Job), (j = ⟨{ freshNzb fullDisk with par := .success }, { parRepaired := true }⟩ ∨
      j = ⟨{ freshNzb fullDisk with par := .success },
           { parRepaired := true, requestPar := true, forceRepair := true, unpackTried := true,
             lastUnpack := .failure }⟩) →
      (course ⟨.manual, false, false, true, true, false, false⟩
        (List.replicate k { quiet fullDisk with
          unpack := ⟨true, false, false, false, false, false, false, false, false, false⟩ }) j).1 =
        List.replicate k .unpacking ∧
      ∃ j', (course ⟨.manual, false, false, true, true, false, false⟩
        (List.replicate k { quiet fullDisk with
          unpack := ⟨true, false, false, false, false, false, false, false, false, false⟩ }) j).2 =
        .again j' := by
    intro k
    induction k with
    | zero => intro j _; exact ⟨rfl, j, rfl⟩
    | succ k ih =>
      intro j hj
      have hstep : entered ⟨.manual, false, false, true, true, false, false⟩ j = some .unpacking ∧
          turn ⟨.manual, false, false, true, true, false, false⟩ { quiet fullDisk with
          unpack := ⟨true, false, false, false, false, false, false, false, false, false⟩ } j =
          .again ⟨{ freshNzb fullDisk with par := .success },
           { parRepaired := true, requestPar := true, forceRepair := true, unpackTried := true,
             lastUnpack := .failure }⟩ := by
        rcases hj with hj | hj <;> subst hj <;> decide +kernel
      obtain ⟨i1, i2⟩ := ih _ (Or.inr rfl)
      rw [List.replicate_succ, List.replicate_succ, course, hstep.2]
      dsimp only
      rw [hstep.1, i1]
      exact ⟨rfl, i2⟩
  intro k
  have hstep : entered ⟨.manual, false, false, true, true, false, false⟩ ⟨freshNzb fullDisk, {}⟩ =
        some .loadingPars ∧
      turn ⟨.manual, false, false, true, true, false, false⟩
        { quiet fullDisk with check1 := some (.repaired, true) } ⟨freshNzb fullDisk, {}⟩ =
      .again ⟨{ freshNzb fullDisk with par := .success }, { parRepaired := true }⟩ := by
    decide +kernel
  obtain ⟨i1, i2⟩ := loop k _ (Or.inl rfl)
  rw [course, hstep.2]
  dsimp only
  rw [hstep.1, i1]
  exact ⟨rfl, i2⟩

/-- **Violation: unpack "fails" though nothing was unpacked.** The option ParRename is off, the
download has an archive in the list of its completed files, but no archive is found on disk when the
unpack starts (renamed or deleted by a queue-script, for example). A par-check is requested and finds
everything intact; the download ends with "unpack failed" although no unpacker was ever started. -/
theorem unpack_failure_without_attempt :
    ∃ ws : List Work, (∀ w ∈ ws, w.unpack.hasFiles = false ∧ w.unpack.hidden = false ∧
        w.unpack.startErr = false ∧ w.unpack.stopped = false ∧ w.cancel = false ∧
        (w.check1 = some (.notNeeded, false))) ∧
      ∃ j, (course { defaultOpts with parRename := false } ws
        (enter { defaultOpts with parRename := false } (freshNzb fullDisk))).2 = .left j ∧
        j.nzb.par = .success ∧ j.nzb.unpack = .failure :=
  ⟨List.replicate 5 { quiet fullDisk with check1 := some (.notNeeded, false) }, by decide +kernel,
   ⟨{ freshNzb fullDisk with par := .success, parFull := true, rarRename := .nothing,
                             unpack := .failure },
    { unpackTried := true, lastUnpack := .failure, stage := .finished }⟩,
   by decide +kernel, rfl, rfl⟩

/-- The hypotheses of `unpack_given_up_after_check` are met: unpack fails, the par-check finds
nothing to repair, unpack is given up. -/
example : ∃ j, Reach defaultOpts (freshNzb fullDisk) j ∧ entered defaultOpts j = some .unpacking ∧
    j.nzb.disk.pars = true ∧ (turn defaultOpts (quiet fullDisk) j).job.nzb.unpack = .failure := by
  refine ⟨⟨{ freshNzb fullDisk with par := .success, parRename := .nothing, rarRename := .nothing,
                                    parFull := true },
     { unpackTried := true, forceRepair := true, lastUnpack := .failure }⟩,
    ⟨[quiet fullDisk, quiet fullDisk,
      { quiet fullDisk with unpack := ⟨true, false, false, false, false, false, false, false, false, false⟩ },
      { quiet fullDisk with check1 := some (.notNeeded, true), check2 := some (.notNeeded, false) }],
     by decide +kernel⟩, ?_⟩
  decide +kernel

/-- The hypotheses of `script_parcheck_lost` are met. -/
example : ∃ j, Reach { defaultOpts with parRename := false, rarRename := false }
      (freshNzb { fullDisk with pars := false }) j ∧
    entered { defaultOpts with parRename := false, rarRename := false } j = some .executingScript ∧
    j.nzb.par.unchecked = true := by
  refine ⟨⟨{ freshNzb { fullDisk with pars := false } with
      par := .skipped, unpack := .skipped, cleanup := .success }, {}⟩,
    ⟨[quiet { fullDisk with pars := false }, quiet { fullDisk with pars := false }],
     by decide +kernel⟩, ?_⟩
  decide +kernel

/-- **The status of the par-check is what the check has found**: success only if a check found the files good
or repaired them, and "repair possible" only if a check said so. -/
theorem par_status_found (o : Opts) (w : Work) (j : Job) :
    ((finishCheck o w j).nzb.par = .success →
      ∃ s b, (w.check1 = some (s, b) ∨ w.check2 = some (s, b)) ∧ (s = .repaired ∨ s = .notNeeded)) ∧
    ((finishCheck o w j).nzb.par = .possible → ∃ b, w.check1 = some (.possible, b) ∨ w.check2 = some (.possible, b)) := by
  have key : ∀ q f st s, (execute q f st w.check1 w.check2).1 = s → s ≠ .failed →
      ∃ b, w.check1 = some (s, b) ∨ w.check2 = some (s, b) := by
    intro q f st s h hs
    have h1 : ∀ q fu (r : CheckRun), (runCheck q fu r).1 = s → ∃ b, r = some (s, b) := by
      intro q fu r h
      cases r with
      | none => exact absurd h.symm hs
      | some x => exact ⟨x.2, by rw [← h]; rfl⟩
    unfold execute at h
    dsimp only at h
    split at h
    · obtain ⟨b, hb⟩ := h1 _ _ _ h
      exact ⟨b, Or.inr hb⟩
    · obtain ⟨b, hb⟩ := h1 _ _ _ h
      exact ⟨b, Or.inl hb⟩
  unfold finishCheck
  dsimp only
  constructor
  · intro h
    split at h
    next hg =>
      rcases hg.1 with h1 | h1
      · obtain ⟨b, hb⟩ := key _ _ _ _ h1 (by decide)
        exact ⟨_, b, hb, Or.inl rfl⟩
      · obtain ⟨b, hb⟩ := key _ _ _ _ h1 (by decide)
        exact ⟨_, b, hb, Or.inr rfl⟩
    next => split at h <;> exact nomatch h
  · intro h
    split at h
    · exact nomatch h
    · split at h
      next hg => exact key _ _ _ _ hg.1 (by decide)
      next => exact nomatch h

/-- **A check forced by a failed unpack looks at the data**: if it is not stopped and finds the files good
without a repair, no file was taken as good because of the CRC of the download. -/
theorem forced_check_full (o : Opts) (w : Work) (j : Job) (hf : j.post.forceRepair = true) (hs : w.stopped = false)
    (h : (finishCheck o w j).nzb.par = .success) (hr : (finishCheck o w j).post.parRepaired = false) :
    (finishCheck o w j).nzb.parFull = true := by
  unfold finishCheck at h hr ⊢
  dsimp only at h hr ⊢
  split at h
  next hg =>
    rw [if_pos hg] at hr
    have hn : (execute (o.parQuick && !j.post.forceFull) j.post.forceRepair w.stopped w.check1 w.check2).1 = .notNeeded := by
      rcases hg.1 with h1 | h1
      · rw [h1] at hr; exact nomatch hr
      · exact h1
    rw [hf, hs] at hn ⊢
    clear h hr hg
    revert hn
    generalize (o.parQuick && !j.post.forceFull) = q
    intro hn
    unfold execute at hn ⊢
    dsimp only at hn ⊢
    split at hn
    next hc =>
      rw [if_pos hc]
      cases h2 : w.check2 with
      | none => rw [h2] at hn; exact nomatch hn
      | some x => rfl
    next hc =>
      rw [if_neg hc]
      cases h1 : w.check1 with
      | none => rw [h1] at hn; exact nomatch hn
      | some x =>
        cases q with
        | false => rfl
        | true => exact absurd ⟨hn, rfl, rfl, rfl⟩ hc
  next => split at h <;> exact nomatch h

/- A forced check: the first run is quick, the second one is not. -/
example :
    let w := { quiet fullDisk with check1 := some (.notNeeded, true), check2 := some (.notNeeded, true) }
    let j : Job := ⟨freshNzb fullDisk, { forceRepair := true }⟩
    w.stopped = false ∧ (finishCheck defaultOpts w j).nzb.par = .success ∧
    (finishCheck defaultOpts w j).post.parRepaired = false ∧ (finishCheck defaultOpts w j).nzb.parFull = true := by
  decide +kernel

end Verif.PostJob
