import Verif.Pause

/-! Properties of pausing and resuming (C127). -/

namespace Verif.Pause
open Verif.CStr

/-! ## Specification -/

/-- What is paused. -/
def paused (s : S) : What → Bool
  | .download => s.download
  | .post => s.post
  | .scan => s.scan
  | .unknown => false

/-- The task which pauses, and the one which resumes. -/
def pauseTask : What → Cmd
  | .download => .pauseDownload
  | .post => .pausePost
  | .scan => .pauseScan
  | .unknown => .process

def unpauseTask : What → Cmd
  | .download => .unpauseDownload
  | .post => .unpausePost
  | .scan => .unpauseScan
  | .unknown => .process

/-- The tasks the scheduler executes. -/
def tasksOf : Ev → List Cmd
  | .firstCheck l => l
  | .tick _ l => l
  | _ => []

/-- Events which replace or cancel the time of the scheduled resume. -/
def touchesResume : Ev → Bool
  | .command _ _ => true
  | .resumeIn _ (some k) => decide (0 ≤ k)
  | _ => false

/-- The resume at the time `due` was asked for, in state `s` or in `pre`, and neither replaced nor cancelled since. -/
def Scheduled (s : S) (pre : List Ev) (due : Int) : Prop :=
  (s.resume = due ∧ ∀ e ∈ pre, touchesResume e = false) ∨
  ∃ p1 t k p2, pre = p1 ++ Ev.resumeIn t (some k) :: p2 ∧ 0 ≤ k ∧ due = t + k ∧ ∀ e ∈ p2, touchesResume e = false

/-- Less than DiskSpace megabytes are free, and it is known how much is free. -/
def Full (c : Cfg) (free : Int) : Prop := 0 ≤ free ∧ free < c.diskSpace * 1048576

/-! ## The tasks of one check -/

theorem execAll_cons (s s' : S) (c : Cmd) (l : List Cmd) (h : execAll s (c :: l) = some s') : ∃ s1, exec s c = some s1 ∧ execAll s1 l = some s' := by
  simp only [execAll] at h
  cases he : exec s c with
  | none => rw [he] at h; cases h
  | some s1 => rw [he] at h; exact ⟨s1, rfl, h⟩

/-- What a single task leaves alone. -/
theorem exec_keeps (s s' : S) (c : Cmd) (h : exec s c = some s') : s'.resume = s.resume ∧ s'.tempDownload = s.tempDownload ∧
    s'.tempPost = s.tempPost ∧ s'.quota = s.quota ∧ s'.downloading = s.downloading ∧ s'.waiting = s.waiting := by
  cases c <;> simp only [exec] at h
  case rate p =>
    split at h
    · cases h; exact ⟨rfl, rfl, rfl, rfl, rfl, rfl⟩
    · cases ht : times1024 (atoll p) with
      | none => rw [ht] at h; cases h
      | some r => rw [ht] at h; cases h; exact ⟨rfl, rfl, rfl, rfl, rfl, rfl⟩
  all_goals (cases h; exact ⟨rfl, rfl, rfl, rfl, rfl, rfl⟩)

theorem execAll_keeps (l : List Cmd) : ∀ (s s' : S), execAll s l = some s' → s'.resume = s.resume ∧ s'.tempDownload = s.tempDownload ∧
    s'.tempPost = s.tempPost ∧ s'.quota = s.quota ∧ s'.downloading = s.downloading ∧ s'.waiting = s.waiting := by
  induction l with
  | nil => intro s s' h; cases h; exact ⟨rfl, rfl, rfl, rfl, rfl, rfl⟩
  | cons c l ih =>
    intro s s' h
    obtain ⟨s1, h1, h2⟩ := execAll_cons s s' c l h
    obtain ⟨a1, a2, a3, a4, a5, a6⟩ := exec_keeps s s1 c h1
    obtain ⟨b1, b2, b3, b4, b5, b6⟩ := ih s1 s' h2
    exact ⟨b1.trans a1, b2.trans a2, b3.trans a3, b4.trans a4, b5.trans a5, b6.trans a6⟩

/-- A single task and the flags. -/
theorem exec_paused (s s' : S) (c : Cmd) (h : exec s c = some s') (w : What) :
    (c = pauseTask w → w ≠ .unknown → paused s' w = true) ∧ (c = unpauseTask w → w ≠ .unknown → paused s' w = false) ∧
    (c ≠ pauseTask w → c ≠ unpauseTask w → paused s' w = paused s w) := by
  cases c <;> simp only [exec] at h
  case rate p =>
    split at h
    · cases h; cases w <;> simp [pauseTask, unpauseTask, paused]
    · cases ht : times1024 (atoll p) with
      | none => rw [ht] at h; cases h
      | some r => rw [ht] at h; cases h; cases w <;> simp [pauseTask, unpauseTask, paused]
  all_goals (cases h; cases w <;> simp [pauseTask, unpauseTask, paused])

theorem execAll_other (l : List Cmd) (w : What) : ∀ (s s' : S), execAll s l = some s' → pauseTask w ∉ l → unpauseTask w ∉ l →
    paused s' w = paused s w := by
  induction l with
  | nil => intro s s' h _ _; cases h; rfl
  | cons c l ih =>
    intro s s' h h1 h2
    obtain ⟨s1, hs1, hl⟩ := execAll_cons s s' c l h
    rw [ih s1 s' hl (fun q => h1 (List.mem_cons_of_mem _ q)) (fun q => h2 (List.mem_cons_of_mem _ q))]
    exact (exec_paused s s1 c hs1 w).2.2 (fun q => h1 (q ▸ List.mem_cons_self ..)) (fun q => h2 (q ▸ List.mem_cons_self ..))

theorem execAll_unpaused (l : List Cmd) (w : What) : ∀ (s s' : S), execAll s l = some s' → paused s w = true → paused s' w = false →
    unpauseTask w ∈ l := by
  induction l with
  | nil => intro s s' h h1 h2; cases h; rw [h1] at h2; cases h2
  | cons c l ih =>
    intro s s' h h1 h2
    obtain ⟨s1, hs1, hl⟩ := execAll_cons s s' c l h
    have hw : w ≠ .unknown := by intro q; rw [q] at h1; cases h1
    by_cases hp : paused s1 w = true
    · exact List.mem_cons_of_mem _ (ih s1 s' hl hp h2)
    · by_cases hu : c = unpauseTask w
      · exact hu ▸ List.mem_cons_self ..
      · exfalso
        by_cases hq : c = pauseTask w
        · exact hp ((exec_paused s s1 c hs1 w).1 hq hw)
        · exact hp (((exec_paused s s1 c hs1 w).2.2 hq hu).trans h1)

theorem execAll_paused (l : List Cmd) (w : What) : ∀ (s s' : S), execAll s l = some s' → paused s w = false → paused s' w = true →
    pauseTask w ∈ l := by
  induction l with
  | nil => intro s s' h h1 h2; cases h; rw [h1] at h2; cases h2
  | cons c l ih =>
    intro s s' h h1 h2
    obtain ⟨s1, hs1, hl⟩ := execAll_cons s s' c l h
    have hw : w ≠ .unknown := by intro q; rw [q] at h2; cases h2
    by_cases hp : paused s1 w = false
    · exact List.mem_cons_of_mem _ (ih s1 s' hl hp h2)
    · by_cases hu : c = pauseTask w
      · exact hu ▸ List.mem_cons_self ..
      · exfalso
        by_cases hq : c = unpauseTask w
        · exact hp ((exec_paused s s1 c hs1 w).2.1 hq hw)
        · exact hp (((exec_paused s s1 c hs1 w).2.2 hu hq).trans h1)

theorem execAll_append (l r : List Cmd) : ∀ (s s' : S), execAll s (l ++ r) = some s' → ∃ s1, execAll s l = some s1 ∧ execAll s1 r = some s' := by
  induction l with
  | nil => intro s s' h; exact ⟨s, rfl, h⟩
  | cons c l ih =>
    intro s s' h
    obtain ⟨s1, h1, h2⟩ := execAll_cons s s' c (l ++ r) h
    obtain ⟨s2, h3, h4⟩ := ih s1 s' h2
    refine ⟨s2, ?_, h4⟩
    simp only [execAll, h1]
    exact h3

/-- **Of the tasks of one check the last one decides** (when no resume is due). -/
theorem last_task_wins (s s' : S) (w : What) (hw : w ≠ .unknown) (b : Bool) (pre post : List Cmd)
    (h : execAll s (pre ++ (if b then pauseTask w else unpauseTask w) :: post) = some s')
    (h1 : pauseTask w ∉ post) (h2 : unpauseTask w ∉ post) : paused s' w = b := by
  obtain ⟨s1, _, h4⟩ := execAll_append pre _ s s' h
  obtain ⟨s2, h5, h6⟩ := execAll_cons s1 s' _ post h4
  rw [execAll_other post w s2 s' h6 h1 h2]
  cases b
  · exact (exec_paused s1 s2 _ h5 w).2.1 rfl hw
  · exact (exec_paused s1 s2 _ h5 w).1 rfl hw

/-! ## Single events -/

theorem low_iff (c : Cfg) (free : Int) : low c free = true ↔ Full c free := by
  unfold low Full
  simp only [Bool.and_eq_true, decide_eq_true_eq]
  constructor
  · rintro ⟨h1, h2⟩
    have h0 : 0 ≤ free := by omega
    rw [Int.tdiv_eq_ediv_of_nonneg h0, Int.tdiv_eq_ediv_of_nonneg (by omega)] at h2
    omega
  · rintro ⟨h1, h2⟩
    rw [Int.tdiv_eq_ediv_of_nonneg h1, Int.tdiv_eq_ediv_of_nonneg (by omega)]
    omega

theorem checkSpace_eq (c : Cfg) (d i : Int) (s : S) :
    checkSpace c d i s = { s with download := s.download || low c d || (c.hasInter && low c i) } := by
  unfold checkSpace
  cases s with
  | mk dl po sc td tp re qu li dg wa se =>
    dsimp only
    cases dl <;> cases low c d <;> cases c.hasInter && low c i <;> rfl

theorem diskWork_eq (c : Cfg) (d i : Int) (f : Bytes → Bool) (s : S) :
    diskWork c d i f s =
      { s with
        download := s.download || (decide (c.diskSpace > 0) && s.downloading && (low c d || (c.hasInter && low c i)))
        tempDownload := s.tempDownload && !(s.waiting && (c.requiredDir.isEmpty || (PpParam.names c.requiredDir).all f))
        tempPost := s.tempPost && !(s.waiting && (c.requiredDir.isEmpty || (PpParam.names c.requiredDir).all f))
        waiting := s.waiting && !(c.requiredDir.isEmpty || (PpParam.names c.requiredDir).all f) } := by
  unfold diskWork
  rw [checkSpace_eq]
  unfold checkRequired
  cases s with
  | mk dl po sc td tp re qu li dg wa se =>
    dsimp only
    cases wa <;> cases dg <;> cases c.requiredDir.isEmpty <;> cases (PpParam.names c.requiredDir).all f <;>
      cases decide (c.diskSpace > 0) <;> simp [Bool.or_assoc]

theorem checkResume_not (now : Int) (s : S) (h : ¬ (s.resume > 0 ∧ now ≥ s.resume)) : checkResume now s = s := by
  unfold checkResume; rw [if_neg h]

theorem checkResume_due (now : Int) (s : S) (h : s.resume > 0 ∧ now ≥ s.resume) :
    checkResume now s = { s with resume := 0, download := false, post := false, scan := false } := by
  unfold checkResume; rw [if_pos h]

theorem run_cons (c : Cfg) (s s' : S) (e : Ev) (l : List Ev) (h : run c s (e :: l) = some s') : ∃ s1, step c s e = some s1 ∧ run c s1 l = some s' := by
  simp only [run] at h
  cases he : step c s e with
  | none => rw [he] at h; cases h
  | some s1 => rw [he] at h; exact ⟨s1, rfl, h⟩

theorem run_append (c : Cfg) (l r : List Ev) : ∀ (s s' : S), run c s (l ++ r) = some s' → ∃ s1, run c s l = some s1 ∧ run c s1 r = some s' := by
  induction l with
  | nil => intro s s' h; exact ⟨s, rfl, h⟩
  | cons e l ih =>
    intro s s' h
    obtain ⟨s1, h1, h2⟩ := run_cons c s s' e (l ++ r) h
    obtain ⟨s2, h3, h4⟩ := ih s1 s' h2
    refine ⟨s2, ?_, h4⟩
    simp only [run, h1]
    exact h3

theorem map_some {s' : S} {o : Option S} {f : S → S} (h : o.map f = some s') : ∃ s1, o = some s1 ∧ f s1 = s' := by
  cases o with
  | none => cases h
  | some s1 => exact ⟨s1, rfl, Option.some.inj h⟩

/-- The resume time after one event. -/
theorem step_resume (c : Cfg) (s s1 : S) (e : Ev) (h : step c s e = some s1) :
    (s1.resume = 0) ∨ (touchesResume e = false ∧ s1.resume = s.resume) ∨
    (∃ t k, e = .resumeIn t (some k) ∧ 0 ≤ k ∧ s1.resume = t + k) := by
  cases e with
  | command w p => left; simp only [step] at h; cases h; cases w <;> rfl
  | resumeIn t o =>
    cases o with
    | none => right; left; simp only [step] at h; cases h; exact ⟨rfl, rfl⟩
    | some k =>
      simp only [step] at h
      by_cases hk : k < 0
      · rw [if_pos hk] at h; cases h; right; left
        exact ⟨by simp only [touchesResume, decide_eq_false_iff_not]; omega, rfl⟩
      · rw [if_neg hk] at h; cases h; right; right; exact ⟨t, k, rfl, by omega, rfl⟩
  | rate o =>
    right; left
    cases o with
    | none => simp only [step] at h; cases h; exact ⟨rfl, rfl⟩
    | some r =>
      simp only [step] at h
      split at h
      · cases h; exact ⟨rfl, rfl⟩
      · cases ht : times1024 r with
        | none => rw [ht] at h; cases h
        | some l => rw [ht] at h; cases h; exact ⟨rfl, rfl⟩
  | rateRaw b => right; left; simp only [step] at h; cases h; exact ⟨rfl, rfl⟩
  | firstCheck l => right; left; exact ⟨rfl, (execAll_keeps l s s1 h).1⟩
  | tick now l =>
    obtain ⟨s2, h1, h2⟩ := map_some h
    have hk := (execAll_keeps l s s2 h1).1
    by_cases hd : s2.resume > 0 ∧ now ≥ s2.resume
    · left; rw [← h2, checkResume_due now s2 hd]
    · right; left; rw [← h2, checkResume_not now s2 hd]; exact ⟨rfl, hk⟩
  | disk d i f => right; left; simp only [step] at h; cases h; rw [diskWork_eq]; exact ⟨rfl, rfl⟩
  | quota m d => right; left; simp only [step] at h; split at h <;> (cases h; exact ⟨rfl, rfl⟩)
  | jobs l => right; left; simp only [step] at h; split at h <;> (cases h; exact ⟨rfl, rfl⟩)
  | downloading b => right; left; simp only [step] at h; cases h; exact ⟨rfl, rfl⟩

/-- **A pending resume was asked for.** -/
theorem scheduled (c : Cfg) (pre : List Ev) : ∀ (s s1 : S), run c s pre = some s1 → s1.resume ≠ 0 → Scheduled s pre s1.resume := by
  induction pre with
  | nil => intro s s1 h _; cases h; left; exact ⟨rfl, fun _ q => nomatch q⟩
  | cons e l ih =>
    intro s s1 h hne
    obtain ⟨s2, h1, h2⟩ := run_cons c s s1 e l h
    rcases ih s2 s1 h2 hne with ⟨ha, hb⟩ | ⟨p1, t, k, p2, hp, hk, hd, hno⟩
    · rcases step_resume c s s2 e h1 with h0 | ⟨ht, hr⟩ | ⟨t, k, he, hk, hr⟩
      · exact absurd (ha.symm.trans h0) hne
      · left
        refine ⟨hr.symm.trans ha, ?_⟩
        intro x hx
        rcases List.mem_cons.1 hx with q | q
        · rw [q]; exact ht
        · exact hb x q
      · right; exact ⟨[], t, k, l, by rw [he]; rfl, hk, ha.symm.trans hr, hb⟩
    · right; exact ⟨e :: p1, t, k, p2, by rw [hp]; rfl, hk, hd, hno⟩

/-- What a single event does to a flag. -/
theorem step_paused (c : Cfg) (s s1 : S) (e : Ev) (h : step c s e = some s1) (w : What) :
    paused s1 w = paused s w ∨ (∃ p, e = .command w p ∧ paused s1 w = p) ∨
    (unpauseTask w ∈ tasksOf e ∧ paused s1 w = false) ∨ (pauseTask w ∈ tasksOf e ∧ paused s1 w = true) ∨
    (∃ now l, e = .tick now l ∧ 0 < s.resume ∧ s.resume ≤ now ∧ paused s1 w = false) ∨
    (w = .download ∧ paused s1 w = true ∧ 0 < c.diskSpace ∧ s.downloading = true ∧
      ∃ d i f, e = .disk d i f ∧ (Full c d ∨ (c.hasInter = true ∧ Full c i))) := by
  cases e with
  | command v p =>
    simp only [step] at h; cases h
    by_cases hw : v = w
    · subst hw
      cases v with
      | unknown => left; rfl
      | _ => right; left; exact ⟨p, rfl, rfl⟩
    · left; cases v <;> cases w <;> first | rfl | exact absurd rfl hw
  | resumeIn t o =>
    left
    cases o with
    | none => simp only [step] at h; cases h; rfl
    | some k => simp only [step] at h; split at h <;> (cases h; cases w <;> rfl)
  | rate o =>
    left
    cases o with
    | none => simp only [step] at h; cases h; rfl
    | some r =>
      simp only [step] at h
      split at h
      · cases h; rfl
      · cases ht : times1024 r with
        | none => rw [ht] at h; cases h
        | some l => rw [ht] at h; cases h; cases w <;> rfl
  | rateRaw b => left; simp only [step] at h; cases h; cases w <;> rfl
  | firstCheck l =>
    by_cases hs : paused s1 w = paused s w
    · left; exact hs
    · right; right
      cases hp : paused s w with
      | true =>
        have h1 : paused s1 w = false := by cases hq : paused s1 w with | false => rfl | true => exact absurd (hq.trans hp.symm) hs
        left; exact ⟨execAll_unpaused l w s s1 h hp h1, h1⟩
      | false =>
        have h1 : paused s1 w = true := by cases hq : paused s1 w with | true => rfl | false => exact absurd (hq.trans hp.symm) hs
        right; left; exact ⟨execAll_paused l w s s1 h hp h1, h1⟩
  | tick now l =>
    obtain ⟨s2, h1, h2⟩ := map_some h
    have hk := (execAll_keeps l s s2 h1).1
    by_cases hd : s2.resume > 0 ∧ now ≥ s2.resume
    · right; right; right; right; left
      rw [checkResume_due now s2 hd] at h2
      refine ⟨now, l, rfl, by omega, by omega, ?_⟩
      rw [← h2]; cases w <;> rfl
    · rw [checkResume_not now s2 hd] at h2
      subst h2
      by_cases hs : paused s2 w = paused s w
      · left; exact hs
      · right; right
        cases hp : paused s w with
        | true =>
          have h3 : paused s2 w = false := by cases hq : paused s2 w with | false => rfl | true => exact absurd (hq.trans hp.symm) hs
          left; exact ⟨execAll_unpaused l w s s2 h1 hp h3, h3⟩
        | false =>
          have h3 : paused s2 w = true := by cases hq : paused s2 w with | true => rfl | false => exact absurd (hq.trans hp.symm) hs
          right; left; exact ⟨execAll_paused l w s s2 h1 hp h3, h3⟩
  | disk d i f =>
    simp only [step] at h; cases h; rw [diskWork_eq]
    cases w with
    | download =>
      by_cases hl : (decide (c.diskSpace > 0) && s.downloading && (low c d || (c.hasInter && low c i))) = true
      · right; right; right; right; right
        simp only [Bool.and_eq_true, Bool.or_eq_true, decide_eq_true_eq, low_iff] at hl
        refine ⟨rfl, ?_, hl.1.1, hl.1.2, d, i, f, rfl, hl.2⟩
        simp only [paused, Bool.or_eq_true, Bool.and_eq_true, decide_eq_true_eq, low_iff]
        exact Or.inr hl
      · left
        simp only [paused]
        rw [Bool.not_eq_true] at hl
        rw [hl, Bool.or_false]
    | _ => left; rfl
  | quota m d => left; simp only [step] at h; split at h <;> (cases h; cases w <;> rfl)
  | jobs l => left; simp only [step] at h; split at h <;> (cases h; cases w <;> rfl)
  | downloading b => left; simp only [step] at h; cases h; cases w <;> rfl

/-! ## What ends a pause and what begins one -/

/-- **A pause holds until it is ended**: whatever happens, downloads (or post-processing, or the scan of the incoming directory)
which are paused go on only after the command for it, a task of the scheduler for it, or a scheduled resume which is due. -/
theorem pause_holds (c : Cfg) (w : What) (evs : List Ev) : ∀ (s s' : S), run c s evs = some s' → paused s w = true → paused s' w = false →
    ∃ pre e post, evs = pre ++ e :: post ∧
      (e = .command w false ∨ unpauseTask w ∈ tasksOf e ∨
        ∃ now tasks due, e = .tick now tasks ∧ Scheduled s pre due ∧ 0 < due ∧ due ≤ now) := by
  have key : ∀ (evs : List Ev) (p0 : List Ev) (s0 s s' : S), run c s0 p0 = some s → run c s evs = some s' → paused s w = true →
      paused s' w = false → ∃ pre e post, evs = pre ++ e :: post ∧
        (e = .command w false ∨ unpauseTask w ∈ tasksOf e ∨
          ∃ now tasks due, e = .tick now tasks ∧ Scheduled s0 (p0 ++ pre) due ∧ 0 < due ∧ due ≤ now) := by
    intro evs
    induction evs with
    | nil => intro p0 s0 s s' _ h h1 h2; cases h; rw [h1] at h2; cases h2
    | cons e l ih =>
      intro p0 s0 s s' h0 h h1 h2
      obtain ⟨s1, hs, hl⟩ := run_cons c s s' e l h
      by_cases hp : paused s1 w = true
      · have h01 : run c s0 (p0 ++ [e]) = some s1 := by
          have : ∀ (p : List Ev) (a : S), run c a p = some s → run c a (p ++ [e]) = some s1 := by
            intro p
            induction p with
            | nil => intro a ha; cases ha; simp only [List.nil_append, run, hs]
            | cons x p ihp =>
              intro a ha
              obtain ⟨b, hb1, hb2⟩ := run_cons c a s x p ha
              simp only [List.cons_append, run, hb1]
              exact ihp b hb2
          exact this p0 s0 h0
        obtain ⟨pre, x, post, he, hx⟩ := ih (p0 ++ [e]) s0 s1 s' h01 hl hp h2
        refine ⟨e :: pre, x, post, by rw [he]; rfl, ?_⟩
        rw [List.append_assoc] at hx
        exact hx
      · refine ⟨[], e, l, rfl, ?_⟩
        rcases step_paused c s s1 e hs w with q | ⟨p, q1, q2⟩ | ⟨q, _⟩ | ⟨_, q⟩ | ⟨now, t, q1, q2, q3, _⟩ | ⟨_, q, _⟩
        · rw [q] at hp; exact absurd h1 hp
        · left
          cases p with
          | false => exact q1
          | true => exact absurd q2 hp
        · right; left; exact q
        · exact absurd q hp
        · right; right
          refine ⟨now, t, s.resume, q1, ?_, q2, q3⟩
          rw [List.append_nil]
          exact scheduled c p0 s0 s h0 (by omega)
        · exact absurd q hp
  intro s s' h h1 h2
  exact key evs [] s s s' rfl h h1 h2

/-- **Nothing pauses by itself**: what runs is paused only by the command for it, a task of the scheduler for it, or — downloads
only — by too little free space on DestDir or InterDir, found while downloading. -/
theorem running_holds (c : Cfg) (w : What) (evs : List Ev) : ∀ (s s' : S), run c s evs = some s' → paused s w = false → paused s' w = true →
    ∃ pre e post s1, evs = pre ++ e :: post ∧ run c s pre = some s1 ∧
      (e = .command w true ∨ pauseTask w ∈ tasksOf e ∨
        (w = .download ∧ 0 < c.diskSpace ∧ s1.downloading = true ∧
          ∃ d i f, e = .disk d i f ∧ (Full c d ∨ (c.hasInter = true ∧ Full c i)))) := by
  induction evs with
  | nil => intro s s' h h1 h2; cases h; rw [h1] at h2; cases h2
  | cons e l ih =>
    intro s s' h h1 h2
    obtain ⟨s1, hs, hl⟩ := run_cons c s s' e l h
    by_cases hp : paused s1 w = false
    · obtain ⟨pre, x, post, s2, he, hr, hx⟩ := ih s1 s' hl hp h2
      refine ⟨e :: pre, x, post, s2, by rw [he]; rfl, ?_, hx⟩
      simp only [run, hs]
      exact hr
    · refine ⟨[], e, l, s, rfl, rfl, ?_⟩
      rcases step_paused c s s1 e hs w with q | ⟨p, q1, q2⟩ | ⟨_, q⟩ | ⟨q, _⟩ | ⟨_, _, _, _, _, q⟩ | ⟨q1, _, q3, q4, q5⟩
      · rw [q] at hp; exact absurd h1 hp
      · left
        cases p with
        | true => exact q1
        | false => exact absurd q2 hp
      · exact absurd q hp
      · right; left; exact q
      · exact absurd q hp
      · right; right; exact ⟨q1, q3, q4, q5⟩

/-- **A command does what it says**: it sets its own flag, leaves the other two alone, and cancels a scheduled resume. -/
theorem command_sets (c : Cfg) (s : S) (w : What) (hw : w ≠ .unknown) (p : Bool) : ∃ s', step c s (.command w p) = some s' ∧
    paused s' w = p ∧ (∀ v, v ≠ w → paused s' v = paused s v) ∧ s'.resume = 0 ∧
    s'.tempDownload = s.tempDownload ∧ s'.tempPost = s.tempPost ∧ s'.quota = s.quota ∧ s'.limit = s.limit ∧ s'.servers = s.servers := by
  cases w <;> first
    | exact absurd rfl hw
    | exact ⟨_, rfl, rfl, fun v hv => by cases v <;> first | rfl | exact absurd rfl hv, rfl, rfl, rfl, rfl, rfl, rfl⟩

/-! ## The scheduled resume -/

/-- As long as nobody touches it and it is not due, the resume time stays. -/
theorem resume_kept (c : Cfg) (evs : List Ev) : ∀ (s s' : S), run c s evs = some s' → (∀ e ∈ evs, touchesResume e = false) →
    (∀ now tasks, Ev.tick now tasks ∈ evs → now < s.resume) → s'.resume = s.resume := by
  induction evs with
  | nil => intro s s' h _ _; cases h; rfl
  | cons e l ih =>
    intro s s' h h1 h2
    obtain ⟨s1, hs, hl⟩ := run_cons c s s' e l h
    have hr : s1.resume = s.resume := by
      cases e with
      | tick now tasks =>
        obtain ⟨s2, h3, h4⟩ := map_some hs
        have hk := (execAll_keeps tasks s s2 h3).1
        have hlt := h2 now tasks (List.mem_cons_self ..)
        rw [checkResume_not now s2 (by omega)] at h4
        rw [← h4]; exact hk
      | command w p => exact absurd (h1 _ (List.mem_cons_self ..)) (by simp [touchesResume])
      | resumeIn t o =>
        have ht := h1 _ (List.mem_cons_self ..)
        rcases step_resume c s s1 _ hs with q | ⟨_, q⟩ | ⟨t', k, q1, q2, _⟩
        · cases o with
          | none => simp only [step] at hs; cases hs; rfl
          | some k =>
            simp only [touchesResume, decide_eq_false_iff_not] at ht
            simp only [step] at hs
            rw [if_pos (by omega)] at hs
            cases hs; rfl
        · exact q
        · cases q1; simp only [touchesResume, decide_eq_false_iff_not] at ht; exact absurd q2 ht
      | rate o =>
        cases o with
        | none => simp only [step] at hs; cases hs; rfl
        | some r =>
          simp only [step] at hs
          split at hs
          · cases hs; rfl
          · obtain ⟨l', _, q⟩ := Option.map_eq_some_iff.1 hs
            rw [← q]
      | rateRaw b => simp only [step] at hs; cases hs; rfl
      | firstCheck l => exact (execAll_keeps l s s1 hs).1
      | disk d i f => simp only [step] at hs; cases hs; rw [diskWork_eq]
      | quota m d => simp only [step] at hs; split at hs <;> (cases hs; rfl)
      | jobs l => simp only [step] at hs; split at hs <;> (cases hs; rfl)
      | downloading b => simp only [step] at hs; cases hs; rfl
    rw [ih s1 s' hl (fun x hx => h1 x (List.mem_cons_of_mem _ hx)) (fun now t hx => by rw [hr]; exact h2 now t (List.mem_cons_of_mem _ hx))]
    exact hr

/-- **The scheduled resume comes, and not too early**: scheduleresume at `t` for `k` seconds, then anything but pause commands and
further requests; the first work of the scheduler at or after `t + k` ends all three pauses, whatever tasks it executes, and the
request is used up. -/
theorem auto_resume (c : Cfg) (s s' : S) (t k : Int) (hk : 0 ≤ k) (hpos : 0 < t + k) (evs : List Ev) (now : Int) (tasks : List Cmd)
    (h1 : ∀ e ∈ evs, touchesResume e = false) (h2 : ∀ n l, Ev.tick n l ∈ evs → n < t + k) (h3 : t + k ≤ now)
    (h : run c s (.resumeIn t (some k) :: evs ++ [.tick now tasks]) = some s') :
    s'.download = false ∧ s'.post = false ∧ s'.scan = false ∧ s'.resume = 0 := by
  obtain ⟨s1, ha, hb⟩ := run_append c (.resumeIn t (some k) :: evs) [.tick now tasks] s s' h
  obtain ⟨s2, hc, hd⟩ := run_cons c s s1 _ evs ha
  have he : s2.resume = t + k := by
    simp only [step] at hc
    rw [if_neg (by omega)] at hc
    cases hc; rfl
  have hf : s1.resume = t + k := by
    rw [resume_kept c evs s2 s1 hd h1 (fun n l q => by rw [he]; exact h2 n l q)]; exact he
  obtain ⟨s3, hg, hh⟩ := run_cons c s1 s' _ [] hb
  cases hh
  obtain ⟨s4, hi, hj⟩ := map_some hg
  have hl := (execAll_keeps tasks s1 s4 hi).1
  rw [checkResume_due now s4 (by omega)] at hj
  rw [← hj]
  exact ⟨rfl, rfl, rfl, rfl⟩

/-- **The resume beats the schedule**: a task which pauses downloads at the very minute the resume is due — or at any time before,
after the request — is undone by it. -/
theorem resume_beats_schedule (c : Cfg) (s s' : S) (now : Int) (hr : 0 < s.resume) (hn : s.resume ≤ now)
    (h : step c s (.tick now [.pauseDownload]) = some s') : s'.download = false := by
  have h1 : step c s (.tick now [.pauseDownload]) = some (checkResume now { s with download := true }) := rfl
  rw [h1] at h
  have h2 := Option.some.inj h
  rw [checkResume_due now { s with download := true } ⟨hr, hn⟩] at h2
  rw [← h2]

/-! ## What may start -/

/-- **While downloads are paused or the quota is reached only items with force priority are downloaded**, and during the temporary
pause only files with extra priority; a download which already runs gives up under exactly the same conditions. -/
theorem who_may_start (s : S) (forced extra : Bool) :
    (mayStart s forced extra = true ↔
      ((s.download = false ∧ s.quota = false) ∨ forced = true) ∧ (s.tempDownload = false ∨ extra = true)) ∧
    (givesUp s forced extra = true ↔ mayStart s forced extra = false) := by
  unfold mayStart givesUp
  constructor
  · cases s.download <;> cases s.quota <;> cases s.tempDownload <;> cases forced <;> cases extra <;> simp
  · cases s.download <;> cases s.quota <;> cases s.tempDownload <;> cases forced <;> cases extra <;> simp

/-- **What the other pauses hold back**: a paused scan only the scans nobody asked for, paused post-processing all but forced items, and
paused downloads the fetching of URLs and feeds unless it is forced. The quota and the temporary pause hold back neither URLs nor feeds. -/
theorem what_else_may_start (s : S) (requested forced urlForce : Bool) :
    (mayScan s requested = false ↔ s.scan = true ∧ requested = false) ∧
    (mayPostProcess s forced = false ↔ s.tempPost = true ∨ (s.post = true ∧ forced = false)) ∧
    (mayFetchUrl s urlForce = false ↔ s.download = true ∧ urlForce = false) ∧
    (mayFetchFeed s requested urlForce = false ↔ s.download = true ∧ requested = false ∧ urlForce = false) := by
  unfold mayScan mayPostProcess mayFetchUrl mayFetchFeed
  refine ⟨?_, ?_, ?_, ?_⟩
  · cases s.scan <;> cases requested <;> simp
  · cases s.tempPost <;> cases s.post <;> cases forced <;> simp
  · cases s.download <;> cases urlForce <;> simp
  · cases s.download <;> cases requested <;> cases urlForce <;> simp

/-- **With errors in the configuration nothing begins by itself**, and with -P no download: until an event which resumes. -/
theorem start_paused (c : Cfg) (pauseArg errors : Bool) (limit : Int) (servers : List Server) (evs : List Ev) (s' : S)
    (h : run c (start pauseArg errors limit servers) evs = some s') (w : What) (hw : w ≠ .unknown)
    (hp : errors = true ∨ (pauseArg = true ∧ w = .download))
    (h1 : Ev.command w false ∉ evs) (h2 : ∀ e ∈ evs, unpauseTask w ∉ tasksOf e) (h3 : ∀ t k, Ev.resumeIn t k ∉ evs) : paused s' w = true := by
  cases hq : paused s' w with
  | true => rfl
  | false =>
    exfalso
    have h0 : paused (start pauseArg errors limit servers) w = true := by
      rcases hp with q | ⟨q1, q2⟩
      · cases w <;> first | exact absurd rfl hw | simp [paused, start, q]
      · simp [paused, start, q1, q2]
    obtain ⟨pre, e, post, he, hx⟩ := pause_holds c w evs _ s' h h0 hq
    have hin : e ∈ evs := by rw [he]; exact List.mem_append_right _ (List.mem_cons_self ..)
    rcases hx with q | q | ⟨_, _, due, _, hs, hd, _⟩
    · exact h1 (q ▸ hin)
    · exact h2 e hin q
    · rcases hs with ⟨q, _⟩ | ⟨p1, t, k, p2, q, _⟩
      · have : due = 0 := q.symm
        omega
      · exact h3 t (some k) (by rw [he, q]; simp)

/-- **The quota and the pause are independent**: only the check of the quota changes the one. -/
theorem quota_separate (c : Cfg) (s s1 : S) (e : Ev) (h : step c s e = some s1) :
    s1.quota = s.quota ∨ ∃ m d, e = .quota m d ∧ s1 = { s with quota := m || d } := by
  cases e with
  | command w p => left; simp only [step] at h; cases h; cases w <;> rfl
  | resumeIn t o =>
    left
    cases o with
    | none => simp only [step] at h; cases h; rfl
    | some k => simp only [step] at h; split at h <;> (cases h; rfl)
  | rate o =>
    left
    cases o with
    | none => simp only [step] at h; cases h; rfl
    | some r =>
      simp only [step] at h
      split at h
      · cases h; rfl
      · obtain ⟨l', _, q⟩ := Option.map_eq_some_iff.1 h
        rw [← q]
  | rateRaw b => left; simp only [step] at h; cases h; rfl
  | firstCheck l => left; exact (execAll_keeps l s s1 h).2.2.2.1
  | tick now l =>
    left
    obtain ⟨s2, h1, h2⟩ := map_some h
    have hk := (execAll_keeps l s s2 h1).2.2.2.1
    rw [← h2]
    by_cases hd : s2.resume > 0 ∧ now ≥ s2.resume
    · rw [checkResume_due now s2 hd]; exact hk
    · rw [checkResume_not now s2 hd]; exact hk
  | disk d i f => left; simp only [step] at h; cases h; rw [diskWork_eq]
  | quota m d =>
    simp only [step] at h
    split at h
    · left; cases h; rfl
    · right; cases h; exact ⟨m, d, rfl, rfl⟩
  | jobs l => left; simp only [step] at h; split at h <;> (cases h; rfl)
  | downloading b => left; simp only [step] at h; cases h; rfl

/-- Are all directories of RequiredDir there? -/
def dirsThere (c : Cfg) (f : Bytes → Bool) : Prop := ∀ d ∈ PpParam.names c.requiredDir, f d = true

/-- **Nothing ordinary starts before the required directories are there**: from the start of the program on, as long as at every
check one of them is missing, no file without extra priority is downloaded and nothing is post-processed, forced or not. -/
theorem waits_for_dirs (c : Cfg) (evs : List Ev)
    (hev : ∀ d i f, Ev.disk d i f ∈ evs → ∃ x ∈ PpParam.names c.requiredDir, f x = false) :
    ∀ (s s' : S), s.waiting = true → s.tempDownload = true → s.tempPost = true → run c s evs = some s' →
      (∀ forced, mayStart s' forced false = false) ∧ (∀ forced, mayPostProcess s' forced = false) ∧ s'.waiting = true := by
  induction evs with
  | nil =>
    intro s s' h1 h2 h3 h
    cases h
    exact ⟨fun forced => by simp [mayStart, h2], fun forced => by simp [mayPostProcess, h3], h1⟩
  | cons e l ih =>
    intro s s' h1 h2 h3 h
    obtain ⟨s1, hs, hl⟩ := run_cons c s s' e l h
    have key : s1.waiting = true ∧ s1.tempDownload = true ∧ s1.tempPost = true := by
      cases e with
      | command w p => simp only [step] at hs; cases hs; cases w <;> exact ⟨h1, h2, h3⟩
      | resumeIn t o =>
        cases o with
        | none => simp only [step] at hs; cases hs; exact ⟨h1, h2, h3⟩
        | some k => simp only [step] at hs; split at hs <;> (cases hs; exact ⟨h1, h2, h3⟩)
      | rate o =>
        cases o with
        | none => simp only [step] at hs; cases hs; exact ⟨h1, h2, h3⟩
        | some r =>
          simp only [step] at hs
          split at hs
          · cases hs; exact ⟨h1, h2, h3⟩
          · obtain ⟨l', _, q⟩ := Option.map_eq_some_iff.1 hs
            rw [← q]; exact ⟨h1, h2, h3⟩
      | rateRaw b => simp only [step] at hs; cases hs; exact ⟨h1, h2, h3⟩
      | firstCheck l =>
        obtain ⟨_, a, b, _, _, d⟩ := execAll_keeps l s s1 hs
        exact ⟨d.trans h1, a.trans h2, b.trans h3⟩
      | tick now l =>
        obtain ⟨s2, h4, h5⟩ := map_some hs
        obtain ⟨_, a, b, _, _, d⟩ := execAll_keeps l s s2 h4
        rw [← h5]
        by_cases hd : s2.resume > 0 ∧ now ≥ s2.resume
        · rw [checkResume_due now s2 hd]; exact ⟨d.trans h1, a.trans h2, b.trans h3⟩
        · rw [checkResume_not now s2 hd]; exact ⟨d.trans h1, a.trans h2, b.trans h3⟩
      | disk d i f =>
        simp only [step] at hs; cases hs; rw [diskWork_eq]
        obtain ⟨x, hx, hf⟩ := hev d i f (List.mem_cons_self ..)
        have hne : c.requiredDir.isEmpty = false := by
          cases hr : c.requiredDir with
          | nil =>
            have h0 : PpParam.names [] = [] := by decide +kernel
            rw [hr, h0] at hx; cases hx
          | cons _ _ => rfl
        have hall : (PpParam.names c.requiredDir).all f = false := by
          rw [List.all_eq_false]; exact ⟨x, hx, by rw [hf]; exact Bool.false_ne_true⟩
        rw [hne, hall]
        simp [h1, h2, h3]
      | quota m d => simp only [step] at hs; split at hs <;> (cases hs; exact ⟨h1, h2, h3⟩)
      | jobs l => simp only [step] at hs; rw [if_pos h3] at hs; cases hs; exact ⟨h1, h2, h3⟩
      | downloading b => simp only [step] at hs; cases hs; exact ⟨h1, h2, h3⟩
    exact ih (fun d i f q => hev d i f (List.mem_cons_of_mem _ q)) s1 s' key.1 key.2.1 key.2.2 hl

/-- **Once they are there the wait is over for good**: the check which finds all of them lifts both temporary pauses. -/
theorem dirs_lift (c : Cfg) (s : S) (hw : s.waiting = true) (d i : Int) (f : Bytes → Bool) (hf : dirsThere c f) :
    ∃ s', step c s (.disk d i f) = some s' ∧ s'.tempDownload = false ∧ s'.tempPost = false ∧ s'.waiting = false := by
  have hall : (PpParam.names c.requiredDir).all f = true := List.all_eq_true.2 hf
  refine ⟨_, rfl, ?_⟩
  rw [diskWork_eq, hw, hall]
  simp

/-- **From the start of the program on**: while a required directory is missing at every check nothing ordinary starts, and the first check
which finds all of them ends the wait. -/
theorem start_waits (c : Cfg) (pauseArg errors : Bool) (limit : Int) (servers : List Server) (evs : List Ev)
    (hev : ∀ d i f, Ev.disk d i f ∈ evs → ∃ x ∈ PpParam.names c.requiredDir, f x = false) (s' : S)
    (h : run c (start pauseArg errors limit servers) evs = some s') :
    (∀ forced, mayStart s' forced false = false) ∧ (∀ forced, mayPostProcess s' forced = false) ∧
    ∀ d i f, dirsThere c f → ∃ s'', step c s' (.disk d i f) = some s'' ∧ s''.tempDownload = false ∧ s''.tempPost = false := by
  obtain ⟨h1, h2, h3⟩ := waits_for_dirs c evs hev _ s' rfl rfl rfl h
  refine ⟨h1, h2, fun d i f hf => ?_⟩
  obtain ⟨s'', q1, q2, q3, _⟩ := dirs_lift c s' h3 d i f hf
  exact ⟨s'', q1, q2, q3⟩

/-- **Later, downloads are held exactly while a job is in a stage whose option asks for it.** -/
theorem held_for_jobs (c : Cfg) (s : S) (hp : s.tempPost = false) (stages : List Stage) : ∃ s', step c s (.jobs stages) = some s' ∧
    (s'.tempDownload = true ↔ ∃ x ∈ stages,
      (c.parPause = true ∧ x ∈ [Stage.loadingPars, .verifyingSources, .repairing, .verifyingRepaired, .parRenaming]) ∨
      (c.unpackPause = true ∧ x ∈ [Stage.rarRenaming, .unpacking, .cleaningUp, .moving]) ∨
      (c.scriptPause = true ∧ x = .executingScript)) := by
  refine ⟨{ s with tempDownload := stages.any (needPause c) }, by simp only [step]; rw [if_neg (by rw [hp]; exact Bool.false_ne_true)], ?_⟩
  simp only [List.any_eq_true]
  constructor
  · rintro ⟨x, hx, hn⟩
    refine ⟨x, hx, ?_⟩
    cases x <;> simp_all [needPause]
  · rintro ⟨x, hx, hn⟩
    refine ⟨x, hx, ?_⟩
    cases x <;> simp_all [needPause]

/-! ## The speed limit -/

/-- **The limit is what was asked for**, in units of 1024 bytes; anything from 2097152 KB/s on is undefined. -/
theorem rate_sets (c : Cfg) (s : S) (r : Int) (h0 : 0 ≤ r) :
    (r < 2097152 → step c s (.rate (some r)) = some { s with limit := r * 1024 }) ∧
    (2097152 ≤ r → step c s (.rate (some r)) = none) := by
  simp only [step]
  rw [if_neg (by omega)]
  unfold times1024
  constructor
  · intro h; rw [if_pos (by omega)]; rfl
  · intro h; rw [if_neg (by omega)]; rfl

/-- A negative limit is refused over XML-RPC, and taken over from the binary protocol, where it means no limit. -/
theorem negative_rate (c : Cfg) (s : S) (r : Int) (h : r < 0) :
    step c s (.rate (some r)) = some s ∧ step c s (.rateRaw r) = some { s with limit := r } := by
  simp only [step]
  rw [if_pos h]
  exact ⟨by first | rfl | trivial, by first | rfl | trivial⟩

/-! ## Tasks for servers -/

/-- Two lists of the same length whose elements are related one by one. -/
inductive Each {α : Type} (R : α → α → Prop) : List α → List α → Prop
  | nil : Each R [] []
  | cons {x y : α} {l m : List α} : R x y → Each R l m → Each R (x :: l) (y :: m)

theorem editOne_first (a : Bool) (t : Bytes) (pre : List Server) (s : Server) (post : List Server)
    (h1 : ∀ x ∈ pre, refers t x = false) (h2 : refers t s = true) :
    editOne a t (pre ++ s :: post) = pre ++ { s with active := a } :: post := by
  induction pre with
  | nil => simp only [List.nil_append, editOne, h2, if_true]
  | cons x l ih =>
    have hx := h1 x (List.mem_cons_self ..)
    simp only [List.cons_append, editOne, hx, Bool.false_eq_true, if_false]
    rw [ih (fun y hy => h1 y (List.mem_cons_of_mem _ hy))]

theorem editOne_none (a : Bool) (t : Bytes) (l : List Server) (h : ∀ x ∈ l, refers t x = false) : editOne a t l = l := by
  induction l with
  | nil => rfl
  | cons x l ih =>
    have hx := h x (List.mem_cons_self ..)
    simp only [editOne, hx, Bool.false_eq_true, if_false]
    rw [ih (fun y hy => h y (List.mem_cons_of_mem _ hy))]

/-- Who is meant by a reference: the server with the number the reference begins with, or with the name. -/
def Meant (t : Bytes) (x : Server) : Prop := (0 < atoll t ∧ x.id = atoll t) ∨ x.name.map WildMask.lower = t.map WildMask.lower

theorem refers_iff (t : Bytes) (x : Server) : refers t x = true ↔ Meant t x := by
  unfold refers Meant Rpc.eqNoCase
  simp only [Bool.or_eq_true, Bool.and_eq_true, decide_eq_true_eq, beq_iff_eq]

/-- What one reference does: numbers and names stay, every server is as before or was referred to and got the new state. -/
theorem editOne_each (a : Bool) (t : Bytes) (l : List Server) :
    Each (fun x y => y.id = x.id ∧ y.name = x.name ∧ (y.active = x.active ∨ (Meant t x ∧ y.active = a))) l (editOne a t l) := by
  induction l with
  | nil => exact .nil
  | cons x l ih =>
    by_cases hx : refers t x = true
    · simp only [editOne, hx, if_true]
      refine .cons ⟨rfl, rfl, Or.inr ⟨(refers_iff t x).1 hx, rfl⟩⟩ ?_
      clear ih
      induction l with
      | nil => exact .nil
      | cons y l ih => exact .cons ⟨rfl, rfl, Or.inl rfl⟩ ih
    · rw [Bool.not_eq_true] at hx
      simp only [editOne, hx, Bool.false_eq_true, if_false]
      exact .cons ⟨rfl, rfl, Or.inl rfl⟩ ih

theorem forall₂_trans {α : Type} {R Q P : α → α → Prop} (hq : ∀ x y z, R x y → Q y z → P x z) : ∀ {a b c : List α},
    Each R a b → Each Q b c → Each P a c
  | _, _, _, .nil, .nil => .nil
  | _, _, _, .cons h1 t1, .cons h2 t2 => .cons (hq _ _ _ h1 h2) (forall₂_trans hq t1 t2)

/-- **A task for servers touches only the servers it names**: numbers, names and order stay, and a server whose state differs
afterwards is meant by one of the references of the task. -/
theorem edit_only_named (a : Bool) (list : Bytes) (l : List Server) :
    Each (fun x y => y.id = x.id ∧ y.name = x.name ∧ (y.active = x.active ∨ ((∃ t ∈ PpParam.names list, Meant t x) ∧ y.active = a)))
      l (editServer a list l) := by
  unfold editServer
  generalize PpParam.names list = ts
  induction ts generalizing l with
  | nil =>
    simp only [List.foldl_nil]
    induction l with
    | nil => exact .nil
    | cons y l ih => exact .cons ⟨rfl, rfl, Or.inl rfl⟩ ih
  | cons t ts ih =>
    simp only [List.foldl_cons]
    refine forall₂_trans ?_ (editOne_each a t l) (ih (editOne a t l))
    rintro x y z ⟨h1, h2, h3⟩ ⟨h4, h5, h6⟩
    have hm : ∀ u, Meant u y → Meant u x := by
      intro u hu
      unfold Meant at hu ⊢
      rw [h1, h2] at hu
      exact hu
    refine ⟨h4.trans h1, h5.trans h2, ?_⟩
    rcases h6 with h6 | ⟨⟨u, hu, hmu⟩, h6⟩
    · rcases h3 with h3 | ⟨h3, h7⟩
      · left; exact h6.trans h3
      · right; exact ⟨⟨t, List.mem_cons_self .., h3⟩, h6.trans h7⟩
    · right; exact ⟨⟨u, List.mem_cons_of_mem _ hu, hm u hmu⟩, h6⟩

/-- **Every reference which fits exactly one server is obeyed.** -/
theorem edit_unique (a : Bool) (list : Bytes) (l : List Server) (t : Bytes) (ht : t ∈ PpParam.names list) (i : Nat) (hi : i < l.length)
    (h1 : Meant t l[i]) (h2 : ∀ j (hj : j < l.length), Meant t l[j] → j = i) :
    ((editServer a list l)[i]?).map (·.active) = some a := by
  have hstay : ∀ (ts : List Bytes) (m : List Server), (m[i]?).map (·.active) = some a →
      ((ts.foldl (fun l t => editOne a t l) m)[i]?).map (·.active) = some a := by
    intro ts
    induction ts with
    | nil => intro m hm; exact hm
    | cons u ts ih =>
      intro m hm
      refine ih _ ?_
      have : ∀ (m : List Server) (i : Nat), (m[i]?).map (·.active) = some a → ((editOne a u m)[i]?).map (·.active) = some a := by
        intro m
        induction m with
        | nil => intro i h; exact h
        | cons x m ihm =>
          intro i h
          simp only [editOne]
          split
          · cases i with
            | zero => rfl
            | succ i => exact h
          · cases i with
            | zero => exact h
            | succ i => exact ihm i h
      exact this m i hm
  have hset : ∀ (m : List Server) (i : Nat), (∃ x, m[i]? = some x ∧ Meant t x) → (∀ j x, m[j]? = some x → Meant t x → j = i) →
      ((editOne a t m)[i]?).map (·.active) = some a := by
    intro m
    induction m with
    | nil => rintro i ⟨x, hx, _⟩ _; cases hx
    | cons x m ih =>
      rintro i ⟨y, hy, hm⟩ hu
      simp only [editOne]
      by_cases hx : refers t x = true
      · have := hu 0 x rfl ((refers_iff t x).1 hx)
        subst this
        rw [if_pos hx]; rfl
      · rw [if_neg hx]
        cases i with
        | zero => cases hy; exact absurd ((refers_iff t x).2 hm) hx
        | succ i =>
          refine ih i ⟨y, hy, hm⟩ ?_
          intro j z hz hmz
          have := hu (j + 1) z hz hmz
          omega
  have hall : ∀ (ts : List Bytes) (m : List Server), t ∈ ts → (∃ x, m[i]? = some x ∧ Meant t x) → (∀ j x, m[j]? = some x → Meant t x → j = i) →
      ((ts.foldl (fun l t => editOne a t l) m)[i]?).map (·.active) = some a := by
    intro ts
    induction ts with
    | nil => intro m h; cases h
    | cons u ts ih =>
      intro m h hx hu
      rcases List.mem_cons.1 h with q | q
      · rw [List.foldl_cons, ← q]
        exact hstay ts _ (hset m i hx hu)
      · rw [List.foldl_cons]
        have hpos : ∀ (m : List Server) (j : Nat) (z : Server), (editOne a u m)[j]? = some z → ∃ x, m[j]? = some x ∧ x.id = z.id ∧ x.name = z.name := by
          intro m
          induction m with
          | nil => intro j z h; exact ⟨z, h, rfl, rfl⟩
          | cons x m ihm =>
            intro j z h
            simp only [editOne] at h
            split at h
            · cases j with
              | zero => cases h; exact ⟨x, rfl, rfl, rfl⟩
              | succ j => exact ⟨z, h, rfl, rfl⟩
            · cases j with
              | zero => cases h; exact ⟨x, rfl, rfl, rfl⟩
              | succ j => exact ihm j z h
        have hpos' : ∀ (m : List Server) (j : Nat) (x : Server), m[j]? = some x → ∃ z, (editOne a u m)[j]? = some z ∧ x.id = z.id ∧ x.name = z.name := by
          intro m
          induction m with
          | nil => intro j z h; exact ⟨z, h, rfl, rfl⟩
          | cons x m ihm =>
            intro j z h
            simp only [editOne]
            split
            · cases j with
              | zero => cases h; exact ⟨_, rfl, rfl, rfl⟩
              | succ j => exact ⟨z, h, rfl, rfl⟩
            · cases j with
              | zero => cases h; exact ⟨_, rfl, rfl, rfl⟩
              | succ j => exact ihm j z h
        refine ih _ q ?_ ?_
        · obtain ⟨x, hx1, hx2⟩ := hx
          obtain ⟨z, hz1, hz2, hz3⟩ := hpos' m i x hx1
          refine ⟨z, hz1, ?_⟩
          unfold Meant at hx2 ⊢
          rw [← hz2, ← hz3]; exact hx2
        · intro j z hz hmz
          obtain ⟨x, hx1, hx2, hx3⟩ := hpos m j z hz
          refine hu j x hx1 ?_
          unfold Meant at hmz ⊢
          rw [hx2, hx3]; exact hmz
  unfold editServer
  refine hall _ l ht ⟨l[i], List.getElem?_eq_getElem hi, h1⟩ ?_
  intro j x hx hm
  obtain ⟨hj, he⟩ := List.getElem?_eq_some_iff.1 hx
  exact h2 j hj (he ▸ hm)

/-- **A task fetches the feeds it names**: for each reference the first feed with the number or the name, and all of them for "0". -/
theorem fetch_spec (list : Bytes) (feeds : List (Int × Bytes)) (n : Int) : n ∈ fetchFeed list feeds ↔
    (n = 0 ∧ feeds ≠ [] ∧ lit "0" ∈ PpParam.names list) ∨
    (∃ t ∈ PpParam.names list, t ≠ lit "0" ∧ ∃ pre f post, feeds = pre ++ f :: post ∧ f.1 = n ∧
      (f.1 = atoll t ∨ f.2.map WildMask.lower = t.map WildMask.lower) ∧
      ∀ g ∈ pre, g.1 ≠ atoll t ∧ g.2.map WildMask.lower ≠ t.map WildMask.lower) := by
  unfold fetchFeed
  rw [List.mem_filterMap]
  constructor
  · rintro ⟨t, ht, h⟩
    obtain ⟨f, hf, hn⟩ := Option.map_eq_some_iff.1 h
    by_cases h0 : t = lit "0"
    · left
      subst h0
      refine ⟨?_, ?_, ht⟩
      · rw [if_pos (beq_self_eq_true _)] at hn; exact hn.symm
      · intro q; rw [q] at hf; cases hf
    · right
      have hb : (t == lit "0") = false := beq_eq_false_iff_ne.2 h0
      refine ⟨t, ht, h0, ?_⟩
      obtain ⟨hp, as, bs, hab, hno⟩ := List.find?_eq_some_iff_append.1 hf
      refine ⟨as, f, bs, hab, ?_, ?_, ?_⟩
      · rw [hb] at hn; exact hn
      · simp only [hb, Bool.or_false, Bool.or_eq_true, beq_iff_eq, Rpc.eqNoCase] at hp; exact hp
      · intro g hg
        have := hno g hg
        simp only [hb, Bool.or_false, Bool.not_eq_true', Bool.or_eq_false_iff, beq_eq_false_iff_ne, Rpc.eqNoCase] at this
        exact this
  · rintro (⟨h1, h2, h3⟩ | ⟨t, ht, h0, pre, f, post, h1, h2, h3, h4⟩)
    · refine ⟨lit "0", h3, ?_⟩
      cases feeds with
      | nil => exact absurd rfl h2
      | cons f l =>
        rw [List.find?_cons_of_pos (by simp)]
        simp [h1]
    · refine ⟨t, ht, ?_⟩
      have hb : (t == lit "0") = false := beq_eq_false_iff_ne.2 h0
      have hf : feeds.find? (fun f => f.1 == atoll t || Rpc.eqNoCase f.2 t || t == lit "0") = some f := by
        rw [List.find?_eq_some_iff_append]
        refine ⟨?_, pre, post, h1, ?_⟩
        · simp only [hb, Bool.or_false, Bool.or_eq_true, beq_iff_eq, Rpc.eqNoCase]; exact h3
        · intro g hg
          have := h4 g hg
          simp only [hb, Bool.or_false, Bool.not_eq_true', Bool.or_eq_false_iff, beq_eq_false_iff_ne, Rpc.eqNoCase]
          exact this
      rw [hf, Option.map_some, hb]
      simp [h2]

example : fetchFeed (lit "2, Shows; 7") [(1, lit "movies"), (2, lit "music"), (3, lit "shows")] = [2, 3] ∧
    fetchFeed (lit "0") [(1, lit "movies")] = [0] := by decide +kernel

/-- **A name which begins with a number is taken for the number** (Scheduler.cpp:290-294): with the servers 1 and 2 and the name
"2nd" at the third, a task for "2nd" changes the second. -/
theorem number_before_name :
    let servers := [⟨1, lit "main", true⟩, ⟨2, lit "block", true⟩, ⟨3, lit "2nd", true⟩]
    editServer false (lit "2nd") servers = [⟨1, lit "main", true⟩, ⟨2, lit "block", false⟩, ⟨3, lit "2nd", true⟩] := by
  decide +kernel

/-! ## Where the pause does not do what one may expect -/

/-- **A full disk pauses downloads only**: forced items go on being downloaded exactly as before, and so do post-processing and the
scan. -/
theorem full_disk_limits (c : Cfg) (s : S) (hd : 0 < c.diskSpace) (hg : s.downloading = true) (hw : s.waiting = false) (d i : Int) (f : Bytes → Bool)
    (hf : Full c d ∨ (c.hasInter = true ∧ Full c i)) : ∃ s', step c s (.disk d i f) = some s' ∧ (∀ extra, mayStart s' false extra = false) ∧
      (∀ extra, mayStart s' true extra = mayStart s true extra) ∧ (∀ forced, mayPostProcess s' forced = mayPostProcess s forced) ∧
      (∀ r, mayScan s' r = mayScan s r) := by
  have hl : (low c d || (c.hasInter && low c i)) = true := by
    simp only [Bool.or_eq_true, Bool.and_eq_true, low_iff]; exact hf
  refine ⟨_, rfl, ?_⟩
  rw [diskWork_eq, hl, hg]
  simp only [hd, mayStart, mayPostProcess, mayScan, hw]
  simp

/-- **The pause for a full disk stays when there is space again**: no number of checks of the disk lifts it. -/
theorem full_disk_stays (c : Cfg) (evs : List Ev) (he : ∀ e ∈ evs, ∃ d i f, e = .disk d i f) (s s' : S) (h : run c s evs = some s')
    (hp : s.download = true) : s'.download = true := by
  cases hq : s'.download with
  | true => rfl
  | false =>
    exfalso
    obtain ⟨pre, e, post, h1, h2⟩ := pause_holds c .download evs s s' h hp hq
    obtain ⟨d, i, f, h3⟩ := he e (by rw [h1]; exact List.mem_append_right _ (List.mem_cons_self ..))
    rw [h3] at h2
    rcases h2 with q | q | ⟨_, _, _, q, _⟩
    · cases q
    · cases q
    · cases q

/-- **A task of the scheduler switches on or off what it names**: a server meant by exactly one way of reading a reference gets the state
which the task asks for, servers nobody referred to keep theirs. -/
theorem task_servers (s : S) (on : Bool) (list : Bytes) : ∃ s', exec s (if on then .activate list else .deactivate list) = some s' ∧
    Each (fun x y => y.id = x.id ∧ y.name = x.name ∧ (y.active = x.active ∨ ((∃ t ∈ PpParam.names list, Meant t x) ∧ y.active = on)))
      s.servers s'.servers ∧
    ∀ t ∈ PpParam.names list, ∀ i (hi : i < s.servers.length), Meant t s.servers[i] →
      (∀ j (hj : j < s.servers.length), Meant t s.servers[j] → j = i) → (s'.servers[i]?).map (·.active) = some on := by
  cases on with
  | true =>
    exact ⟨_, rfl, edit_only_named true list s.servers, fun t ht i hi h1 h2 => edit_unique true list s.servers t ht i hi h1 h2⟩
  | false =>
    exact ⟨_, rfl, edit_only_named false list s.servers, fun t ht i hi h1 h2 => edit_unique false list s.servers t ht i hi h1 h2⟩

/-- **The first check of the schedule undoes the pause of the command line**, and for downloads also the one because of errors in
the configuration. -/
theorem schedule_undoes_start (c : Cfg) (pauseArg errors : Bool) (limit : Int) (servers : List Server) :
    ∃ s', run c (start pauseArg errors limit servers) [.firstCheck [.unpauseDownload]] = some s' ∧ s'.download = false := ⟨_, rfl, rfl⟩

/-- **A pause does not survive a restart**: the state after a start depends on the command line and the configuration only. -/
theorem restart_forgets (c : Cfg) (limit : Int) (servers : List Server) : ∃ s', run c (start false false limit servers)
      [.command .download true, .command .post true, .resumeIn 1000 (some 60)] = some s' ∧
    s'.download = true ∧ s'.post = true ∧ s'.resume = 1060 ∧
    (start false false s'.limit s'.servers).download = false ∧ (start false false s'.limit s'.servers).post = false ∧
    (start false false s'.limit s'.servers).resume = 0 := ⟨_, rfl, rfl, rfl, rfl, rfl, rfl, rfl⟩

/-- **Files with extra priority are downloaded, and URLs fetched, while required directories are missing**: right after the start,
whatever the disk service found. -/
theorem not_waiting (c : Cfg) (evs : List Ev) (he : ∀ e ∈ evs, ∃ i f, e = .disk (-1) i f) (hi : c.hasInter = false) (limit : Int) (servers : List Server) (s' : S)
    (h : run c (start false false limit servers) evs = some s') :
    mayStart s' false true = true ∧ mayFetchUrl s' false = true ∧ mayFetchFeed s' false false = true := by
  have hno : s'.download = false := by
    cases hq : s'.download with
    | false => rfl
    | true =>
      exfalso
      obtain ⟨pre, e, post, s1, h1, _, h2⟩ := running_holds c .download evs _ s' h rfl hq
      obtain ⟨i, f, h3⟩ := he e (by rw [h1]; exact List.mem_append_right _ (List.mem_cons_self ..))
      rw [h3] at h2
      rcases h2 with q | q | ⟨_, _, _, d, j, g, q, q2⟩
      · cases q
      · cases q
      · cases q
        rcases q2 with ⟨q3, _⟩ | ⟨q3, _⟩
        · omega
        · rw [hi] at q3; cases q3
  have hqu : ∀ (evs : List Ev) (s s' : S), (∀ e ∈ evs, ∃ i f, e = .disk (-1) i f) → run c s evs = some s' → s'.quota = s.quota := by
    intro evs
    induction evs with
    | nil => intro s s' _ h; cases h; rfl
    | cons e l ih =>
      intro s s' he h
      obtain ⟨s1, hs, hl⟩ := run_cons c s s' e l h
      rw [ih s1 s' (fun x hx => he x (List.mem_cons_of_mem _ hx)) hl]
      obtain ⟨i, f, h3⟩ := he e (List.mem_cons_self ..)
      rcases quota_separate c s s1 e hs with q | ⟨m, d, q, _⟩
      · exact q
      · rw [h3] at q; cases q
  have hq := hqu evs _ s' he h
  refine ⟨?_, ?_, ?_⟩
  · simp [mayStart, hno, hq, start]
  · simp [mayFetchUrl, hno]
  · simp [mayFetchFeed, hno]

/-! ## Examples -/

/-- Options: 250 MB must be free, InterDir is set, one required directory, downloads are held during repair. -/
def exCfg : Cfg := ⟨250, true, lit "/mnt/disk", 0, 0, true, false, false⟩

def exServers : List Server := [⟨1, lit "main", true⟩, ⟨2, lit "block", true⟩]

def exStart : S := start false false 0 exServers

def there (d : Bytes) : Bool := d == lit "/mnt/disk"

/-- The directory is there at the second check, downloads begin, are paused with a resume after ten minutes, which comes. -/
def exEvs : List Ev := [.disk 0 0 (fun _ => false), .disk 0 0 there, .downloading true, .disk 1000000000 1000000000 there,
  .command .download true, .resumeIn 1000 (some 600), .downloading false, .tick 1040 [.rate (lit "500")], .jobs [.repairing], .tick 1600 [.deactivate (lit "Block")]]

example : run exCfg exStart exEvs = some
    { download := false, post := false, scan := false, tempDownload := true, tempPost := false, resume := 0, quota := false,
      limit := 512000, downloading := false, waiting := false, servers := [⟨1, lit "main", true⟩, ⟨2, lit "block", false⟩] } := by decide +kernel

-- `pause_holds`, `auto_resume`: paused after five events, not any more after ten
example : (run exCfg exStart (exEvs.take 5)).map (·.download) = some true ∧ (run exCfg exStart exEvs).map (·.download) = some false ∧
    (run exCfg exStart (exEvs.take 9)).map (·.download) = some true := by decide +kernel

-- `running_holds`, `full_disk_limits`: 250 MB less one byte
example : (run exCfg exStart [.downloading true, .disk 262143999 (-1) there]).map (·.download) = some true ∧
    (run exCfg exStart [.downloading true, .disk 262144000 (-1) there]).map (·.download) = some false ∧
    Full exCfg 262143999 := by
  refine ⟨by decide +kernel, by decide +kernel, ?_⟩
  unfold Full; decide

-- `waits_for_dirs`
example : (exStart.waiting = true ∧ exStart.tempDownload = true ∧ exStart.tempPost = true) ∧
    ∀ d i f, Ev.disk d i f ∈ [Ev.disk 0 0 (fun _ => false), .command .download false] → ∃ x ∈ PpParam.names exCfg.requiredDir, f x = false := by
  refine ⟨by decide, ?_⟩
  intro d i f h
  refine ⟨lit "/mnt/disk", by decide +kernel, ?_⟩
  rcases List.mem_cons.1 h with q | q
  · cases q; rfl
  · rcases List.mem_cons.1 q with q | q <;> cases q

-- `dirs_lift`
example : dirsThere exCfg there := by
  have : PpParam.names exCfg.requiredDir = [lit "/mnt/disk"] := by decide +kernel
  intro d hd
  rw [this] at hd
  rw [List.mem_singleton.1 hd]
  decide +kernel

-- `edit_unique`: the number and the name
example : Meant (lit "2") ⟨2, lit "block", true⟩ ∧ Meant (lit "BLOCK") ⟨2, lit "block", true⟩ ∧ ¬ Meant (lit "2") ⟨1, lit "main", true⟩ ∧
    PpParam.names (lit "2; main") = [lit "2", lit "main"] := by
  refine ⟨?_, ?_, ?_, by decide +kernel⟩ <;> unfold Meant <;> decide +kernel

end Verif.Pause
