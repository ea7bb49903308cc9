/-
C19: scheduled tasks.
-/
import Verif.Scheduler

namespace Verif.Scheduler
open Verif.Calendar

/-! ### Specification -/

/-- The task is due at the local time `a` (seconds since 1970): it has its time of day, and its weekday (1 January 1970 was a Thursday, bit 0 of the
mask is Monday) is in the mask, or the mask is empty. -/
def Due (t : Task) (a : Int) : Prop :=
  a % 86400 = 3600 * t.hours + 60 * t.minutes ∧ (t.weekDays = 0 ∨ t.weekDays.testBit ((a / 86400 + 3) % 7).toNat = true)

instance (t : Task) (a : Int) : Decidable (Due t a) := by unfold Due; infer_instance

/-- A clock time. -/
def Clock (t : Task) : Prop := 0 ≤ t.hours ∧ t.hours ≤ 23 ∧ 0 ≤ t.minutes ∧ t.minutes ≤ 59

/-- The times for which task `i` was executed. -/
def runs (es : List Event) (i : Nat) : List Int := (es.filter (fun e => e.task == i)).map (·.appoint)

/-! ### Lemmas -/

theorem appointOn_eq (t : Task) (loop : Int) (h : 0 ≤ loop) :
    appointOn t loop = 86400 * (loop / 86400) + 3600 * t.hours + 60 * t.minutes := by
  unfold appointOn
  rw [timegm_civil]
  omega

theorem weekDayOk_iff (t : Task) (loop : Int) :
    weekDayOk t loop = true ↔ (t.weekDays = 0 ∨ t.weekDays.testBit ((loop / 86400 + 3) % 7).toNat = true) := by
  unfold weekDayOk
  dsimp only
  have e : ((if (loop / 86400 + 4) % 7 = 0 then 7 else (loop / 86400 + 4) % 7) - 1) = (loop / 86400 + 3) % 7 := by
    by_cases h : (loop / 86400 + 4) % 7 = 0
    · rw [if_pos h]; omega
    · rw [if_neg h]; omega
  rw [e]
  simp

/-- The loop over the days for one task. -/
def loopOne (exec : Bool) (last cur : Int) (i : Nat) : Nat → Int → Task → Task × List Event
  | 0, _, t => (t, [])
  | k + 1, loop, t =>
    if loop ≤ cur then
      let r := checkTask exec last cur loop i t
      let rs := loopOne exec last cur i k (loop + 86400) r.1
      (rs.1, r.2 ++ rs.2)
    else (t, [])

theorem checkTask_task (exec last cur loop i t) : ∀ e ∈ (checkTask exec last cur loop i t).2, e.task = i := by
  unfold checkTask
  dsimp only
  by_cases h : t.lastExecuted ≠ loop
  · rw [if_pos h]
    split
    · simp
    · simp
  · rw [if_neg h]; simp

theorem checkDay_task (exec last cur loop) (ts : List Task) (i j : Nat) :
    (checkDay exec last cur loop i ts).1[j]? = ts[j]?.map (fun t => (checkTask exec last cur loop (i + j) t).1) ∧
    (checkDay exec last cur loop i ts).2.filter (fun e => e.task == i + j) =
      (ts[j]?.map (fun t => (checkTask exec last cur loop (i + j) t).2)).getD [] := by
  induction ts generalizing i j with
  | nil => simp [checkDay]
  | cons t ts ih =>
    simp only [checkDay]
    have hself : ∀ k, (checkTask exec last cur loop i t).2.filter (fun e => e.task == k) =
        if i = k then (checkTask exec last cur loop i t).2 else [] := by
      intro k
      have := checkTask_task exec last cur loop i t
      by_cases hk : i = k
      · rw [if_pos hk, List.filter_eq_self]
        intro e he; simp [this e he, hk]
      · rw [if_neg hk, List.filter_eq_nil_iff]
        intro e he; simp [this e he, hk]
    have hge : ∀ (ts : List Task) (i k : Nat), k < i → (checkDay exec last cur loop i ts).2.filter (fun e => e.task == k) = [] := by
      intro ts
      induction ts with
      | nil => intro i k _; simp [checkDay]
      | cons t ts ih =>
        intro i k hk
        simp only [checkDay, List.filter_append]
        rw [ih (i + 1) k (by omega), List.filter_eq_nil_iff.2]
        · rfl
        · intro e he
          have := checkTask_task exec last cur loop i t e he
          simp; omega
    cases j with
    | zero =>
      refine ⟨by simp, ?_⟩
      rw [List.filter_append, hself, if_pos (by omega), hge ts (i + 1) (i + 0) (by omega)]
      simp
    | succ j =>
      have := ih (i + 1) j
      rw [show i + 1 + j = i + (j + 1) by omega] at this
      refine ⟨by simpa using this.1, ?_⟩
      rw [List.filter_append, hself, if_neg (by omega), this.2]
      simp

/-- Tasks do not influence each other. -/
theorem checkLoop_task (exec last cur) (k : Nat) (loop : Int) (ts : List Task) (i : Nat) :
    (checkLoop exec last cur k loop ts).1[i]? = ts[i]?.map (fun t => (loopOne exec last cur i k loop t).1) ∧
    (checkLoop exec last cur k loop ts).2.filter (fun e => e.task == i) =
      (ts[i]?.map (fun t => (loopOne exec last cur i k loop t).2)).getD [] := by
  induction k generalizing loop ts with
  | zero =>
    simp only [checkLoop, loopOne]
    cases ts[i]? <;> simp
  | succ k ih =>
    unfold checkLoop loopOne
    by_cases h : loop ≤ cur
    · simp only [if_pos h]
      have hd := checkDay_task exec last cur loop ts 0 i
      rw [Nat.zero_add] at hd
      have := ih (loop + 86400) (checkDay exec last cur loop 0 ts).1
      rw [hd.1] at this
      refine ⟨?_, ?_⟩
      · rw [this.1]; cases ts[i]? <;> simp
      · rw [List.filter_append, this.2, hd.2]
        cases ts[i]? <;> simp
    · simp only [if_neg h]
      refine ⟨by cases ts[i]? <;> simp, ?_⟩
      cases ts[i]? <;> simp

/-- Everything about one task which does not change. -/
def SameTask (a b : Task) : Prop := a.hours = b.hours ∧ a.minutes = b.minutes ∧ a.weekDays = b.weekDays

theorem due_same {a b : Task} (h : SameTask a b) (x : Int) : Due a x ↔ Due b x := by
  unfold Due; rw [h.1, h.2.1, h.2.2]

/-- The appointment of the day when the task was last executed is past. -/
def Past (t : Task) (last : Int) : Prop :=
  t.lastExecuted = 0 ∨ (0 ≤ t.lastExecuted ∧ 86400 * (t.lastExecuted / 86400) + 3600 * t.hours + 60 * t.minutes ≤ last)

theorem checkTask_spec (exec : Bool) (last cur loop : Int) (i : Nat) (t : Task) (hc : Clock t) (hl : 0 < loop) (hp : Past t last ∨ t.lastExecuted < loop)  :
    SameTask (checkTask exec last cur loop i t).1 t ∧
    (checkTask exec last cur loop i t).2.map (·.appoint) =
      (if Due t (86400 * (loop / 86400) + 3600 * t.hours + 60 * t.minutes) ∧
        last < 86400 * (loop / 86400) + 3600 * t.hours + 60 * t.minutes ∧
        86400 * (loop / 86400) + 3600 * t.hours + 60 * t.minutes ≤ cur
      then [86400 * (loop / 86400) + 3600 * t.hours + 60 * t.minutes] else []) ∧
    ((checkTask exec last cur loop i t).1.lastExecuted = t.lastExecuted ∨
      ((checkTask exec last cur loop i t).1.lastExecuted = loop ∧ 86400 * (loop / 86400) + 3600 * t.hours + 60 * t.minutes ≤ cur)) ∧
    (∀ e ∈ (checkTask exec last cur loop i t).2, e.process = exec) := by
  obtain ⟨c1, c2, c3, c4⟩ := hc
  have ha := appointOn_eq t loop (by omega)
  have hdue : Due t (86400 * (loop / 86400) + 3600 * t.hours + 60 * t.minutes) ↔ weekDayOk t loop = true := by
    rw [weekDayOk_iff]
    unfold Due
    have e1 : (86400 * (loop / 86400) + 3600 * t.hours + 60 * t.minutes) % 86400 = 3600 * t.hours + 60 * t.minutes := by omega
    have e2 : (86400 * (loop / 86400) + 3600 * t.hours + 60 * t.minutes) / 86400 = loop / 86400 := by omega
    rw [e1, e2]
    simp
  have hp' : t.lastExecuted = loop → 86400 * (loop / 86400) + 3600 * t.hours + 60 * t.minutes ≤ last := by
    intro he
    rcases hp with hp | hp
    · rcases hp with hp | hp
      · omega
      · rw [he] at hp; omega
    · omega
  generalize hA : 86400 * (loop / 86400) + 3600 * t.hours + 60 * t.minutes = A at *
  unfold checkTask
  dsimp only
  rw [ha]
  by_cases h : t.lastExecuted ≠ loop
  · rw [if_pos h]
    have hst : decide (t.hours = startupTask) = false := by
      rw [decide_eq_false_iff_not]
      intro hx
      rw [hx] at c1
      exact absurd c1 (by decide)
    rw [hst]
    by_cases hd : Due t A ∧ last < A ∧ A ≤ cur
    · have hb : ((decide (t.hours ≥ 0) && weekDayOk t loop && decide (last < A) && decide (A ≤ cur)) || (false && decide (t.lastExecuted = 0))) = true := by
        simp [hdue.1 hd.1, hd.2.1, hd.2.2, c1]
      rw [if_pos hb, if_pos hd]
      exact ⟨⟨rfl, rfl, rfl⟩, rfl, .inr ⟨rfl, hd.2.2⟩, by simp⟩
    · have hb : ¬ ((decide (t.hours ≥ 0) && weekDayOk t loop && decide (last < A) && decide (A ≤ cur)) || (false && decide (t.lastExecuted = 0))) = true := by
        rw [hdue] at hd
        simp only [Bool.and_eq_true, decide_eq_true_eq, Bool.false_and, Bool.or_false]
        intro x
        exact hd ⟨x.1.1.2, x.1.2, x.2⟩
      rw [if_neg hb, if_neg hd]
      exact ⟨⟨rfl, rfl, rfl⟩, rfl, .inl rfl, by simp⟩
  · rw [if_neg h]
    have := hp' (Decidable.byContradiction h)
    rw [if_neg (fun x => by omega)]
    exact ⟨⟨rfl, rfl, rfl⟩, rfl, .inl rfl, by simp⟩

/-- The days of one check, for one task. -/
theorem loopOne_spec (exec : Bool) (last cur : Int) (i : Nat) (k : Nat) (loop : Int) (t : Task) (hc : Clock t) (hl : 0 < loop)
    (hp : Past t last ∨ t.lastExecuted < loop) (hpc : Past t cur)
    (hk : cur < loop + 86400 * k) (hmod : loop % 86400 = cur % 86400) :
    SameTask (loopOne exec last cur i k loop t).1 t ∧ Past (loopOne exec last cur i k loop t).1 cur ∧
    ((loopOne exec last cur i k loop t).2.map (·.appoint)).Pairwise (· < ·) ∧
    (∀ a, a ∈ (loopOne exec last cur i k loop t).2.map (·.appoint) ↔ Due t a ∧ last < a ∧ a ≤ cur ∧ loop / 86400 ≤ a / 86400) ∧
    (∀ e ∈ (loopOne exec last cur i k loop t).2, e.process = exec) := by
  induction k generalizing loop t with
  | zero =>
    unfold loopOne
    refine ⟨⟨rfl, rfl, rfl⟩, hpc, by simp, ?_, by simp⟩
    intro a
    constructor
    · intro h; simp at h
    · intro h; omega
  | succ k ih =>
    unfold loopOne
    by_cases h : loop ≤ cur
    · simp only [if_pos h]
      obtain ⟨s1, s2, s3, s4⟩ := checkTask_spec exec last cur loop i t hc hl hp
      generalize hr : checkTask exec last cur loop i t = r at *
      obtain ⟨t', es⟩ := r
      simp only at s1 s2 s3 s4 ⊢
      have hc' : Clock t' := by
        obtain ⟨a, b, _⟩ := s1; unfold Clock at hc ⊢; rw [a, b]; exact hc
      have hp' : Past t' last ∨ t'.lastExecuted < loop + 86400 := by
        rcases s3 with x | x
        · rw [x]
          rcases hp with y | y
          · left
            unfold Past at y ⊢; rw [x, s1.1, s1.2.1]; exact y
          · right; omega
        · right; omega
      have hpc' : Past t' cur := by
        unfold Past at hpc ⊢
        rw [s1.1, s1.2.1]
        rcases s3 with x | x
        · rw [x]; exact hpc
        · right; rw [x.1]; exact ⟨by omega, x.2⟩
      obtain ⟨i1, i2, i3, i4, i5⟩ := ih (loop + 86400) t' hc' (by omega) hp' hpc' (by omega) (by omega)
      refine ⟨⟨i1.1.trans s1.1, i1.2.1.trans s1.2.1, i1.2.2.trans s1.2.2⟩, i2, ?_, ?_, ?_⟩
      · rw [List.map_append, s2, List.pairwise_append]
        refine ⟨?_, i3, ?_⟩
        · split <;> simp
        · intro a ha b hb
          obtain ⟨c1, c2, c3, c4⟩ := hc
          split at ha
          · simp only [List.mem_singleton] at ha
            have := ((i4 b).1 hb).2.2.2
            omega
          · simp at ha
      · intro a
        rw [List.map_append, List.mem_append, i4, s2, due_same s1]
        obtain ⟨c1, c2, c3, c4⟩ := hc
        constructor
        · intro hx
          rcases hx with hx | hx
          · split at hx
            · rename_i hd
              simp only [List.mem_singleton] at hx
              subst hx
              exact ⟨hd.1, hd.2.1, hd.2.2, by omega⟩
            · simp at hx
          · exact ⟨hx.1, hx.2.1, hx.2.2.1, by omega⟩
        · intro ⟨h1, h2, h3, h4⟩
          by_cases hday : a / 86400 = loop / 86400
          · left
            have e : a = 86400 * (loop / 86400) + 3600 * t.hours + 60 * t.minutes := by
              have := h1.1; omega
            rw [← e, if_pos ⟨h1, h2, h3⟩]
            simp
          · right; exact ⟨h1, h2, h3, by omega⟩
      · intro e he
        rcases List.mem_append.1 he with x | x
        · exact s4 e x
        · exact i5 e x
    · simp only [if_neg h]
      refine ⟨⟨rfl, rfl, rfl⟩, hpc, by simp, ?_, by simp⟩
      intro a
      constructor
      · intro h; simp at h
      · intro h; omega

/-- What one check does, for one task of the list, without or with a step of the clock. -/
theorem checkTasks_task (s : Sched) (current off : Int) (i : Nat) (t : Task) (ht : s.tasks[i]? = some t) (hc : Clock t)
    (h0 : 86400 * 8 ≤ current + off) (_h1 : 86400 ≤ s.lastCheck + off ∨ 60 * 90 < current - s.lastCheck ∨ current < s.lastCheck)
    (hp : Past t (s.lastCheck + off)) :
    let step := decide (current - s.lastCheck > 60 * 90 ∨ current < s.lastCheck)
    ∃ t', (checkTasks s current off).1.tasks[i]? = some t' ∧ SameTask t' t ∧ Past t' (current + off) ∧
      (runs (checkTasks s current off).2 i).Pairwise (· < ·) ∧
      (∀ a, a ∈ runs (checkTasks s current off).2 i ↔
        Due t a ∧ (if step then current - 604800 else s.lastCheck) + off < a ∧ a ≤ current + off) ∧
      (∀ e ∈ (checkTasks s current off).2, e.task = i → e.process = (if step then false else s.executeProcess)) ∧
      (checkTasks s current off).1.lastCheck = current := by
  intro step
  have hne : s.tasks.isEmpty = false := by
    cases hq : s.tasks with
    | nil => rw [hq] at ht; simp at ht
    | cons a l => rfl
  -- the state after the reset
  have hreset : ∃ t0, (resetOnStep s current).tasks[i]? = some t0 ∧ SameTask t0 t ∧
      (resetOnStep s current).lastCheck = (if step then current - 604800 else s.lastCheck) ∧
      (resetOnStep s current).executeProcess = (if step then false else s.executeProcess) ∧
      Past t0 ((resetOnStep s current).lastCheck + off) ∧ (resetOnStep s current).lastCheck ≤ current ∧
      86400 ≤ (resetOnStep s current).lastCheck + off := by
    unfold resetOnStep
    dsimp only
    by_cases hs : current - s.lastCheck > 60 * 90 ∨ current - s.lastCheck < 0
    · rw [if_pos hs]
      have hst : step = true := by simp only [step, decide_eq_true_eq]; omega
      rw [hst]
      simp only [if_true]
      refine ⟨{ t with lastExecuted := 0 }, ?_, ⟨rfl, rfl, rfl⟩, by omega, trivial, .inl rfl, by omega, by omega⟩
      rw [List.getElem?_map, ht]
      have : t.hours ≠ startupTask := by have := hc.1; unfold startupTask; omega
      simp [this]
    · rw [if_neg hs]
      have hst : step = false := by simp only [step, decide_eq_false_iff_not]; omega
      rw [hst]
      simp only [Bool.false_eq_true, if_false]
      exact ⟨t, ht, ⟨rfl, rfl, rfl⟩, trivial, trivial, hp, by omega, by omega⟩
  unfold checkTasks
  rw [hne]
  simp only [Bool.false_eq_true, if_false]
  generalize resetOnStep s current = s' at *
  obtain ⟨t0, r1, r2, r3, r4, r5, r6, r7⟩ := hreset
  have hloop : timegm ((civil ((s'.lastCheck + off) / 86400).toNat).tm ((current + off) % 86400 / 3600) ((current + off) % 3600 / 60) ((current + off) % 60)) =
      86400 * ((s'.lastCheck + off) / 86400) + (current + off) % 86400 := by
    rw [timegm_civil]; omega
  rw [hloop]
  have hpc : Past t0 (current + off) := by
    rcases r5 with x | x
    · exact .inl x
    · right; exact ⟨x.1, by omega⟩
  have hc0 : Clock t0 := by unfold Clock at hc ⊢; rw [r2.1, r2.2.1]; exact hc
  obtain ⟨q1, q2, q3, q4, q5⟩ := loopOne_spec s'.executeProcess (s'.lastCheck + off) (current + off) i
    (((current + off) / 86400 - (s'.lastCheck + off) / 86400).toNat + 2)
    (86400 * ((s'.lastCheck + off) / 86400) + (current + off) % 86400) t0 hc0 (by omega) (.inl r5) hpc (by omega) (by omega)
  obtain ⟨p1, p2⟩ := checkLoop_task s'.executeProcess (s'.lastCheck + off) (current + off)
    (((current + off) / 86400 - (s'.lastCheck + off) / 86400).toNat + 2)
    (86400 * ((s'.lastCheck + off) / 86400) + (current + off) % 86400) s'.tasks i
  rw [r1] at p1 p2
  simp only [Option.map_some, Option.getD_some] at p1 p2
  refine ⟨_, p1, ⟨q1.1.trans r2.1, q1.2.1.trans r2.2.1, q1.2.2.trans r2.2.2⟩, q2, ?_, ?_, ?_, trivial⟩
  · unfold runs; rw [p2]; exact q3
  · intro a
    unfold runs
    rw [p2, q4, due_same r2, ← r3]
    constructor
    · intro x; exact ⟨x.1, x.2.1, x.2.2.1⟩
    · intro x; exact ⟨x.1, x.2.1, x.2.2, by omega⟩
  · intro e he hi
    rw [← r4]
    apply q5
    rw [← p2]
    exact List.mem_filter.2 ⟨he, by simpa using hi⟩

/-- Ticks with gaps of at most 90 minutes. -/
def SmallGaps : Int → List Int → Prop
  | _, [] => True
  | t, a :: l => t ≤ a ∧ a - t ≤ 60 * 90 ∧ SmallGaps a l

/-- The last of the ticks. -/
def lastTick : Int → List Int → Int
  | t, [] => t
  | _, a :: l => lastTick a l

theorem lastTick_ge (t : Int) (l : List Int) (h : SmallGaps t l) : t ≤ lastTick t l := by
  induction l generalizing t with
  | nil => simp [lastTick]
  | cons a l ih => have := ih a h.2.2; have := h.1; simp only [lastTick]; omega

/-- C19: for ticks with gaps of at most 90 minutes, a task is executed for exactly the times it is due after the last
check before them, up to the last tick: each time once, in order, and always with its program started. -/
theorem task_runs_once_per_due_time (s : Sched) (off : Int) (l : List Int) (hg : SmallGaps s.lastCheck l) (i : Nat) (t : Task)
    (ht : s.tasks[i]? = some t) (hc : Clock t) (h0 : 86400 * 8 ≤ s.lastCheck + off) (hp : Past t (s.lastCheck + off)) :
    (runs (ticks s off l).2 i).Pairwise (· < ·) ∧
    (∀ a, a ∈ runs (ticks s off l).2 i ↔ Due t a ∧ s.lastCheck + off < a ∧ a ≤ lastTick s.lastCheck l + off) ∧
    (∀ e ∈ (ticks s off l).2, e.task = i → e.process = true) := by
  induction l generalizing s t with
  | nil =>
    simp only [ticks, runs, lastTick]
    refine ⟨by simp, ?_, by simp⟩
    intro a
    constructor
    · intro h; simp at h
    · intro h; omega
  | cons c l ih =>
    obtain ⟨g1, g2, g3⟩ := hg
    obtain ⟨t', a1, a2, a3, a4, a5, a6, a7⟩ := checkTasks_task { s with executeProcess := true } c off i t ht hc (by omega) (by dsimp only; omega) hp
    have hstep : decide (c - s.lastCheck > 60 * 90 ∨ c < s.lastCheck) = false := by
      rw [decide_eq_false_iff_not]; omega
    simp only [hstep, Bool.false_eq_true, if_false] at a5 a6
    have hc' : Clock t' := by unfold Clock at hc ⊢; rw [a2.1, a2.2.1]; exact hc
    simp only [ticks, tick, lastTick]
    generalize hr : checkTasks { s with executeProcess := true } c off = r at *
    obtain ⟨i1, i2, i3⟩ := ih r.1 (by rw [a7]; exact g3) t' a1 hc' (by rw [a7]; omega) (by rw [a7]; exact a3)
    rw [a7] at i2
    have hlt := lastTick_ge c l g3
    have happ : runs (r.2 ++ (ticks r.1 off l).2) i = runs r.2 i ++ runs (ticks r.1 off l).2 i := by
      simp [runs, List.filter_append]
    refine ⟨?_, ?_, ?_⟩
    · rw [happ, List.pairwise_append]
      refine ⟨a4, i1, ?_⟩
      intro a ha b hb
      have := ((a5 a).1 ha).2.2
      have := ((i2 b).1 hb).2.1
      omega
    · intro a
      rw [happ, List.mem_append, a5, i2, due_same a2]
      constructor
      · intro x
        rcases x with x | x
        · exact ⟨x.1, x.2.1, by omega⟩
        · exact ⟨x.1, by omega, x.2.2⟩
      · intro ⟨x1, x2, x3⟩
        by_cases hx : a ≤ c + off
        · exact .inl ⟨x1, x2, hx⟩
        · exact .inr ⟨x1, by omega, x3⟩
    · intro e he hi
      rcases List.mem_append.1 he with x | x
      · exact a6 e x hi
      · exact i3 e x hi

/-- After a start, or a step of the clock of more than 90 minutes or back: the task is executed for each time it was due in the
last week, once, in order, but without its program. -/
theorem clock_step_repeats_week (s : Sched) (current off : Int) (i : Nat) (t : Task) (ht : s.tasks[i]? = some t) (hc : Clock t)
    (h0 : 86400 * 8 ≤ current + off) (hp : Past t (s.lastCheck + off))
    (hs : 60 * 90 < current - s.lastCheck ∨ current < s.lastCheck) :
    (runs (checkTasks s current off).2 i).Pairwise (· < ·) ∧
    (∀ a, a ∈ runs (checkTasks s current off).2 i ↔ Due t a ∧ current + off - 604800 < a ∧ a ≤ current + off) ∧
    (∀ e ∈ (checkTasks s current off).2, e.task = i → e.process = false) := by
  obtain ⟨t', a1, a2, a3, a4, a5, a6, a7⟩ := checkTasks_task s current off i t ht hc h0 (by omega) hp
  have hstep : decide (current - s.lastCheck > 60 * 90 ∨ current < s.lastCheck) = true := by
    rw [decide_eq_true_eq]; omega
  simp only [hstep, if_true] at a5 a6
  refine ⟨a4, ?_, a6⟩
  intro a
  rw [a5]
  constructor
  · intro x; exact ⟨x.1, by omega, x.2.2⟩
  · intro x; exact ⟨x.1, by omega, x.2.2⟩

/-! ### Startup tasks -/

theorem checkTask_startup (exec : Bool) (last cur loop : Int) (i : Nat) (t : Task) (hs : t.hours = startupTask) (hl : 0 < loop) :
    checkTask exec last cur loop i t =
      if t.lastExecuted = 0 then ({ t with lastExecuted := loop }, [⟨i, appointOn t loop, true⟩]) else (t, []) := by
  unfold checkTask
  dsimp only
  have h1 : decide (t.hours ≥ 0) = false := by rw [hs]; rfl
  have h2 : decide (t.hours = startupTask) = true := by rw [hs]; rfl
  rw [h1, h2]
  by_cases h0 : t.lastExecuted = 0
  · rw [if_pos (by omega), if_pos h0]
    simp [h0]
  · rw [if_neg h0]
    by_cases h : t.lastExecuted ≠ loop
    · rw [if_pos h]; simp [h0]
    · rw [if_neg h]

theorem loopOne_startup (exec : Bool) (last cur : Int) (i : Nat) (k : Nat) (loop : Int) (t : Task) (hs : t.hours = startupTask)
    (hl : 0 < loop) (hk : 0 < k) (hlc : loop ≤ cur) :
    (loopOne exec last cur i k loop t).1 = { t with lastExecuted := if t.lastExecuted = 0 then loop else t.lastExecuted } ∧
    (loopOne exec last cur i k loop t).2.map (·.process) = if t.lastExecuted = 0 then [true] else [] := by
  have hdone : ∀ (k : Nat) (loop : Int) (t : Task), t.hours = startupTask → 0 < loop → t.lastExecuted ≠ 0 →
      loopOne exec last cur i k loop t = (t, []) := by
    intro k
    induction k with
    | zero => intro loop t _ _ _; rfl
    | succ k ih =>
      intro loop t hs hl h0
      unfold loopOne
      by_cases h : loop ≤ cur
      · simp only [if_pos h]
        rw [checkTask_startup exec last cur loop i t hs hl, if_neg h0]
        simp only
        rw [ih (loop + 86400) t hs (by omega) h0]
        rfl
      · rw [if_neg h]
  by_cases h0 : t.lastExecuted = 0
  · obtain ⟨k, rfl⟩ : ∃ j, k = j + 1 := ⟨k - 1, by omega⟩
    unfold loopOne
    simp only [if_pos hlc]
    rw [checkTask_startup exec last cur loop i t hs hl, if_pos h0]
    simp only
    rw [hdone k (loop + 86400) _ (by exact hs) (by omega) (by dsimp only; omega), if_pos h0, if_pos h0]
    simp
  · rw [hdone k loop t hs hl h0, if_neg h0, if_neg h0]
    exact ⟨rfl, rfl⟩

/-- One check: a startup task is executed if it was not executed before, with its program. -/
theorem checkTasks_startup (s : Sched) (current off : Int) (i : Nat) (t : Task) (ht : s.tasks[i]? = some t) (hs : t.hours = startupTask)
    (h0 : 86400 * 8 ≤ current + off) (_h1 : 86400 ≤ s.lastCheck + off ∨ 60 * 90 < current - s.lastCheck ∨ current < s.lastCheck) :
    ∃ t', (checkTasks s current off).1.tasks[i]? = some t' ∧ t'.hours = startupTask ∧ t'.lastExecuted ≠ 0 ∧
      ((checkTasks s current off).2.filter (fun e => e.task == i)).map (·.process) = (if t.lastExecuted = 0 then [true] else []) ∧
      (checkTasks s current off).1.lastCheck = current := by
  have hne : s.tasks.isEmpty = false := by
    cases hq : s.tasks with
    | nil => rw [hq] at ht; simp at ht
    | cons a l => rfl
  have hreset : (resetOnStep s current).tasks[i]? = some t ∧
      (resetOnStep s current).lastCheck ≤ current ∧ 86400 ≤ (resetOnStep s current).lastCheck + off := by
    unfold resetOnStep
    dsimp only
    by_cases hb : current - s.lastCheck > 60 * 90 ∨ current - s.lastCheck < 0
    · rw [if_pos hb]
      refine ⟨?_, by dsimp only; omega, by dsimp only; omega⟩
      rw [List.getElem?_map, ht]
      simp [hs]
    · rw [if_neg hb]
      exact ⟨ht, by omega, by omega⟩
  unfold checkTasks
  rw [hne]
  simp only [Bool.false_eq_true, if_false]
  generalize resetOnStep s current = s' at *
  obtain ⟨r1, r2, r3⟩ := hreset
  have hloop : timegm ((civil ((s'.lastCheck + off) / 86400).toNat).tm ((current + off) % 86400 / 3600) ((current + off) % 3600 / 60) ((current + off) % 60)) =
      86400 * ((s'.lastCheck + off) / 86400) + (current + off) % 86400 := by
    rw [timegm_civil]; omega
  rw [hloop]
  obtain ⟨q1, q2⟩ := loopOne_startup s'.executeProcess (s'.lastCheck + off) (current + off) i
    (((current + off) / 86400 - (s'.lastCheck + off) / 86400).toNat + 2)
    (86400 * ((s'.lastCheck + off) / 86400) + (current + off) % 86400) t hs (by omega) (by omega) (by omega)
  obtain ⟨p1, p2⟩ := checkLoop_task s'.executeProcess (s'.lastCheck + off) (current + off)
    (((current + off) / 86400 - (s'.lastCheck + off) / 86400).toNat + 2)
    (86400 * ((s'.lastCheck + off) / 86400) + (current + off) % 86400) s'.tasks i
  rw [r1] at p1 p2
  simp only [Option.map_some, Option.getD_some] at p1 p2
  refine ⟨_, p1, ?_, ?_, ?_, trivial⟩
  · rw [q1]; exact hs
  · rw [q1]
    dsimp only
    by_cases hz : t.lastExecuted = 0
    · rw [if_pos hz]; omega
    · rw [if_neg hz]; exact hz
  · rw [p2]; exact q2

/-- Any later ticks, with any steps of the clock, do not execute a startup task again. -/
theorem startup_not_again (s : Sched) (off : Int) (l : List Int) (i : Nat) (t : Task) (ht : s.tasks[i]? = some t) (hs : t.hours = startupTask)
    (hx : t.lastExecuted ≠ 0) (h1 : 86400 ≤ s.lastCheck + off) (hl : ∀ c ∈ l, 86400 * 8 ≤ c + off) :
    (ticks s off l).2.filter (fun e => e.task == i) = [] := by
  induction l generalizing s t with
  | nil => rfl
  | cons c l ih =>
    obtain ⟨t', a1, a2, a3, a4, a5⟩ := checkTasks_startup { s with executeProcess := true } c off i t ht hs (hl c (by simp)) (.inl h1)
    simp only [ticks, tick]
    have hc := hl c (by simp)
    generalize checkTasks { s with executeProcess := true } c off = r at *
    rw [List.filter_append, ih r.1 t' a1 a2 a3 (by rw [a5]; omega) (fun x hx => hl x (by simp [hx]))]
    rw [if_neg hx] at a4
    simpa using a4

/-- C19: a startup task is executed once, by the first check, with its program, and never again in that run of the program. -/
theorem startup_task_runs_once (tasks : List Task) (exec : Bool) (first off : Int) (l : List Int) (i : Nat) (t : Task)
    (ht : (tasks.mergeSort before)[i]? = some t) (hs : t.hours = startupTask) (hx : t.lastExecuted = 0) (hf : 60 * 90 < first)
    (h0 : 86400 * 8 ≤ first + off) (hl : ∀ c ∈ l, 86400 * 8 ≤ c + off) :
    let r := firstCheck ⟨tasks, 0, exec⟩ first off
    ((r.2 ++ (ticks r.1 off l).2).filter (fun e => e.task == i)).map (·.process) = [true] := by
  intro r
  have hr : r = checkTasks ⟨tasks.mergeSort before, 0, exec⟩ first off := rfl
  obtain ⟨t', a1, a2, a3, a4, a5⟩ := checkTasks_startup ⟨tasks.mergeSort before, 0, exec⟩ first off i t ht hs h0 (by dsimp only; omega)
  rw [List.filter_append, startup_not_again r.1 off l i t' a1 a2 a3 (by show 86400 ≤ (checkTasks _ _ _).1.lastCheck + off; rw [a5]; omega) hl]
  rw [if_pos hx] at a4
  rw [hr, List.append_nil]
  exact a4

/-! ### Order of different tasks -/

/-- The order of the list of tasks. -/
def Sorted (ts : List Task) : Prop := ts.Pairwise (fun a b => before a b = true)

theorem mergeSort_sorted (ts : List Task) : Sorted (ts.mergeSort before) := by
  apply List.pairwise_mergeSort
  · intro a b c h1 h2
    simp only [before, Bool.or_eq_true, decide_eq_true_eq, Bool.and_eq_true] at *
    omega
  · intro a b
    simp only [before, Bool.or_eq_true, decide_eq_true_eq, Bool.and_eq_true]
    omega

theorem checkTask_appoint (exec : Bool) (last cur loop : Int) (i : Nat) (t : Task) :
    ∀ e ∈ (checkTask exec last cur loop i t).2, e.appoint = appointOn t loop := by
  unfold checkTask
  dsimp only
  by_cases h : t.lastExecuted ≠ loop
  · rw [if_pos h]
    split <;> simp
  · rw [if_neg h]; simp

theorem checkTask_same (exec : Bool) (last cur loop : Int) (i : Nat) (t : Task) : SameTask (checkTask exec last cur loop i t).1 t := by
  unfold checkTask
  dsimp only
  by_cases h : t.lastExecuted ≠ loop
  · rw [if_pos h]
    split <;> exact ⟨rfl, rfl, rfl⟩
  · rw [if_neg h]; exact ⟨rfl, rfl, rfl⟩

/-- Tasks with a clock time, or executed at startup. -/
def GoodTime (t : Task) : Prop := -1 ≤ t.hours ∧ t.hours ≤ 23 ∧ 0 ≤ t.minutes ∧ t.minutes ≤ 59

theorem checkDay_sorted (exec : Bool) (last cur loop : Int) (h0 : 0 ≤ loop) (ts : List Task) (i : Nat) (hs : Sorted ts) (hg : ∀ t ∈ ts, GoodTime t) :
    ((checkDay exec last cur loop i ts).2.map (·.appoint)).Pairwise (· ≤ ·) ∧
    (∀ e ∈ (checkDay exec last cur loop i ts).2, ∃ t ∈ ts, e.appoint = appointOn t loop) ∧
    Sorted (checkDay exec last cur loop i ts).1 ∧ (∀ t ∈ (checkDay exec last cur loop i ts).1, ∃ u ∈ ts, SameTask t u) := by
  induction ts generalizing i with
  | nil => simp [checkDay, Sorted]
  | cons t ts ih =>
    obtain ⟨s1, s2⟩ := List.pairwise_cons.1 hs
    obtain ⟨i1, i2, i3, i4⟩ := ih (i + 1) s2 (fun x hx => hg x (by simp [hx]))
    simp only [checkDay]
    have ha := checkTask_appoint exec last cur loop i t
    have hsm := checkTask_same exec last cur loop i t
    have hone : (checkTask exec last cur loop i t).2.length ≤ 1 := by
      unfold checkTask
      dsimp only
      by_cases h : t.lastExecuted ≠ loop
      · rw [if_pos h]; split <;> simp
      · rw [if_neg h]; simp
    generalize checkTask exec last cur loop i t = r at *
    refine ⟨?_, ?_, ?_, ?_⟩
    · rw [List.map_append, List.pairwise_append]
      refine ⟨?_, i1, ?_⟩
      · match r, hone with
        | (_, []), _ => simp
        | (_, [e]), _ => simp
      · intro a haa b hbb
        obtain ⟨e, he, rfl⟩ := List.mem_map.1 haa
        obtain ⟨f, hf, rfl⟩ := List.mem_map.1 hbb
        obtain ⟨u, hu, hfu⟩ := i2 f hf
        rw [ha e he, hfu, appointOn_eq _ _ h0, appointOn_eq _ _ h0]
        have := s1 u hu
        obtain ⟨g1, g2, g3, g4⟩ := hg t (by simp)
        obtain ⟨k1, k2, k3, k4⟩ := hg u (by simp [hu])
        simp only [before, Bool.or_eq_true, decide_eq_true_eq, Bool.and_eq_true] at this
        omega
    · intro e he
      rcases List.mem_append.1 he with x | x
      · exact ⟨t, by simp, ha e x⟩
      · obtain ⟨u, hu, h⟩ := i2 e x
        exact ⟨u, by simp [hu], h⟩
    · unfold Sorted at *
      rw [List.pairwise_cons]
      refine ⟨?_, i3⟩
      intro b hb
      obtain ⟨u, hu, h⟩ := i4 b hb
      have := s1 u hu
      simp only [before, Bool.or_eq_true, decide_eq_true_eq, Bool.and_eq_true] at this ⊢
      rw [hsm.1, hsm.2.1, h.1, h.2.1]
      exact this
    · intro b hb
      rcases List.mem_cons.1 hb with x | x
      · exact ⟨t, by simp, by rw [x]; exact hsm⟩
      · obtain ⟨u, hu, h⟩ := i4 b x
        exact ⟨u, by simp [hu], h⟩

theorem checkLoop_sorted (exec : Bool) (last cur : Int) (k : Nat) (loop : Int) (h0 : 0 ≤ loop) (ts : List Task) (hs : Sorted ts) (hg : ∀ t ∈ ts, GoodTime t) :
    ((checkLoop exec last cur k loop ts).2.map (·.appoint)).Pairwise (· ≤ ·) ∨ ∃ t ∈ ts, t.hours = startupTask := by
  by_cases hex : ∃ t ∈ ts, t.hours = startupTask
  · exact .inr hex
  left
  have main : ∀ (k : Nat) (loop : Int) (ts : List Task), 0 ≤ loop → Sorted ts → (∀ t ∈ ts, Clock t) →
      ((checkLoop exec last cur k loop ts).2.map (·.appoint)).Pairwise (· ≤ ·) ∧
      ∀ e ∈ (checkLoop exec last cur k loop ts).2, 86400 * (loop / 86400) ≤ e.appoint := by
    intro k
    induction k with
    | zero => intro loop ts _ _ _; simp [checkLoop]
    | succ k ih =>
      intro loop ts h0 hs hg
      unfold checkLoop
      by_cases h : loop ≤ cur
      · simp only [if_pos h]
        have hgood : ∀ t ∈ ts, GoodTime t := fun t ht => by
          obtain ⟨a, b, c, d⟩ := hg t ht; exact ⟨by omega, b, c, d⟩
        obtain ⟨d1, d2, d3, d4⟩ := checkDay_sorted exec last cur loop h0 ts 0 hs hgood
        obtain ⟨i1, i2⟩ := ih (loop + 86400) _ (by omega) d3 (fun t ht => by
          obtain ⟨u, hu, hh⟩ := d4 t ht
          have := hg u hu
          unfold Clock at this ⊢
          rw [hh.1, hh.2.1]; exact this)
        have hday : ∀ e ∈ (checkDay exec last cur loop 0 ts).2, 86400 * (loop / 86400) ≤ e.appoint ∧ e.appoint < 86400 * (loop / 86400) + 86400 := by
          intro e he
          obtain ⟨t, ht, h⟩ := d2 e he
          obtain ⟨a, b, c, d⟩ := hg t ht
          rw [h, appointOn_eq _ _ h0]; omega
        refine ⟨?_, ?_⟩
        · rw [List.map_append, List.pairwise_append]
          refine ⟨d1, i1, ?_⟩
          intro a haa b hbb
          obtain ⟨e, he, rfl⟩ := List.mem_map.1 haa
          obtain ⟨f, hf, rfl⟩ := List.mem_map.1 hbb
          have := hday e he
          have := i2 f hf
          omega
        · intro e he
          rcases List.mem_append.1 he with x | x
          · exact (hday e x).1
          · have := i2 e x; omega
      · simp [if_neg h]
  refine (main k loop ts h0 hs ?_).1
  intro t ht
  obtain ⟨a, b, c, d⟩ := hg t ht
  refine ⟨?_, b, c, d⟩
  have : t.hours ≠ -1 := fun h => hex ⟨t, ht, h⟩
  omega

/-- C19: the check after a start executes the tasks of the last week in the order of the times they were due, so the last
command executed is the most recent one. -/
theorem first_check_in_order (tasks : List Task) (exec : Bool) (first off : Int) (hg : ∀ t ∈ tasks, Clock t) (hf : 60 * 90 < first)
    (h0 : 86400 * 8 ≤ first + off) :
    ((firstCheck ⟨tasks, 0, exec⟩ first off).2.map (·.appoint)).Pairwise (· ≤ ·) := by
  unfold firstCheck checkTasks
  dsimp only
  have hs := mergeSort_sorted tasks
  have hm : ∀ t ∈ tasks.mergeSort before, Clock t := fun t ht => hg t ((List.mergeSort_perm tasks before).mem_iff.1 ht)
  generalize tasks.mergeSort before = ts at *
  by_cases he : ts.isEmpty = true
  · rw [if_pos he]; simp
  · rw [if_neg he]
    have hr : resetOnStep ⟨ts, 0, exec⟩ first =
        ⟨ts.map (fun t => if t.hours ≠ startupTask then { t with lastExecuted := 0 } else t), first - 60 * 60 * 24 * 7, false⟩ := by
      unfold resetOnStep
      dsimp only
      rw [if_pos (by omega)]
    rw [hr]
    dsimp only
    rw [timegm_civil]
    have hclk : ∀ t ∈ ts.map (fun t => if t.hours ≠ startupTask then { t with lastExecuted := 0 } else t), Clock t := by
      intro t ht
      obtain ⟨u, hu, rfl⟩ := List.mem_map.1 ht
      have := hm u hu
      split
      · exact this
      · exact this
    rcases checkLoop_sorted false (first - 60 * 60 * 24 * 7 + off) (first + off)
      (((first + off) / 86400 - (first - 60 * 60 * 24 * 7 + off) / 86400).toNat + 2)
      (86400 * (((first - 60 * 60 * 24 * 7 + off) / 86400).toNat : Int) + 3600 * ((first + off) % 86400 / 3600) + 60 * ((first + off) % 3600 / 60) + (first + off) % 60)
      (by omega) _ (by
        unfold Sorted at hs ⊢
        rw [List.pairwise_map]
        apply hs.imp
        intro a b h
        have e : ∀ t : Task, (if t.hours ≠ startupTask then { t with lastExecuted := 0 } else t).hours = t.hours ∧
            (if t.hours ≠ startupTask then { t with lastExecuted := 0 } else t).minutes = t.minutes := by
          intro t; split <;> exact ⟨rfl, rfl⟩
        unfold before at h ⊢
        rw [(e a).1, (e a).2, (e b).1, (e b).2]
        exact h) (fun t ht => by obtain ⟨a, b, c, d⟩ := hclk t ht; exact ⟨by omega, b, c, d⟩) with h | h
    · exact h
    · obtain ⟨t, ht, h⟩ := h
      have := (hclk t ht).1
      rw [h] at this
      simp [startupTask] at this

/-! ### A change of the local time -/

/-- When the local clock is set back by one hour, a task due in the repeated hour can be executed twice for the same local time:
it is 9 January 1970, the task is due at 2:30; the first time the tick comes one second late. -/
theorem winter_time_repeats_task :
    let a : Int := 86400 * 8 + 9000
    let s : Sched := ⟨[⟨2, 30, 0, 0⟩], a - 7200 - 60, true⟩
    let r1 := tick s (a - 7200 + 1) 7200
    let r2 := tick r1.1 (a - 3600 - 60) 3600
    let r3 := tick r2.1 (a - 3600) 3600
    runs r1.2 0 = [a] ∧ runs r2.2 0 = [] ∧ runs r3.2 0 = [a] := by decide +kernel

/-! ### Examples -/

/-- A task at 2:30 on Fridays, a startup task, and one at 23:59 each day. -/
def exTasks : List Task := [⟨23, 59, 0, 0⟩, ⟨2, 30, 16, 0⟩, ⟨-1, 0, 0, 0⟩]

/-- Friday, 9 January 1970, 00:00. -/
def exDay : Int := 86400 * 8

example : ((checkTasks ⟨exTasks.reverse, 0, false⟩ exDay 0).2.map (fun e => (e.task, e.process))) =
    [(0, true), (1, false), (2, false), (2, false), (2, false), (2, false), (2, false), (2, false), (2, false)] := by decide +kernel

example : SmallGaps exDay [exDay + 5400, exDay + 9000, exDay + 14400] := by simp [SmallGaps, exDay]

example : Clock ⟨2, 30, 16, 0⟩ ∧ Due ⟨2, 30, 16, 0⟩ (exDay + 9000) ∧ ¬ Due ⟨2, 30, 16, 0⟩ (exDay + 86400 + 9000) := by
  unfold Clock; decide

example : runs (ticks ⟨exTasks, exDay, true⟩ 0 [exDay + 5400, exDay + 9000, exDay + 14400]).2 1 = [exDay + 9000] := by decide +kernel

end Verif.Scheduler
