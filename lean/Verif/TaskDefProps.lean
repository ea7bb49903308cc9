import Verif.TaskDaysProps
import Verif.TokensProps
import Verif.SchedulerProps
/-
Which tasks the options define (C101).
-/
namespace Verif.TaskDef
open CStr OptStore OptValue

/-! ### Specification -/

/-- An entry of a list of times: a time of the day, a minute of every hour, or the start of the program. The numbers are given
by their digits. -/
inductive When where
  | clock (hs ms : Bytes)
  | hourly (ms : Bytes)
  | start
  deriving DecidableEq, Repr

def When.Valid : When → Prop
  | .clock hs ms => Digits hs ∧ Digits ms ∧ valueIn 10 hs < 24 ∧ valueIn 10 ms < 60
  | .hourly ms => Digits ms ∧ valueIn 10 ms < 60
  | .start => True

/-- How an entry is written. -/
def When.text : When → Bytes
  | .clock hs ms => hs ++ lit ":" ++ ms
  | .hourly ms => lit "*:" ++ ms
  | .start => lit "*"

/-- The hours and minutes which an entry stands for; -1 is the start of the program, which has no minutes. -/
def When.times : When → List (Int × Option Int)
  | .clock hs ms => [((valueIn 10 hs : Int), some (valueIn 10 ms : Int))]
  | .hourly ms => (List.range 24).map (fun (h : Nat) => ((h : Int), some (valueIn 10 ms : Int)))
  | .start => [(-1, none)]

/-- The times of a task as a user sees them. -/
def shownTime (t : NewTask) : Int × Option Int := (t.hours, if t.hours = -1 then none else t.minutes)

/-- Texts with blanks around them and a separator after each of them. -/
def listText : List (Bytes × Bytes × Bytes × UInt8) → Bytes
  | [] => []
  | (a, w, b, c) :: l => a ++ w ++ b ++ c :: listText l

/-! ### Lists of times -/

theorem pieces_word (sep : UInt8 → Bool) (w : Bytes) (hw : ∀ x ∈ w, sep x = false) (c : UInt8) (hc : sep c = true) (s : Bytes) :
    ∀ cur : Bytes, Tokens.pieces sep cur (w ++ c :: s) =
      (if cur.reverse ++ w = [] then [] else [cur.reverse ++ w]) ++ Tokens.pieces sep [] s := by
  induction w with
  | nil =>
    intro cur
    rw [List.nil_append, Tokens.pieces, if_pos hc, List.append_nil]
    congr 1
    by_cases h : cur = []
    · rw [if_pos h, if_pos (by rw [h]; rfl)]
    · rw [if_neg h, if_neg (by simpa using h)]
  | cons x w ih =>
    intro cur
    rw [List.cons_append, Tokens.pieces, if_neg (by rw [hw x (by simp)]; exact Bool.false_ne_true),
      ih (fun y hy => hw y (List.mem_cons_of_mem _ hy))]
    simp

theorem tokens_list (sep : UInt8 → Bool) (l : List (Bytes × Bytes × Bytes × UInt8))
    (h : ∀ e ∈ l, (∀ x ∈ e.1 ++ e.2.1 ++ e.2.2.1, sep x = false) ∧ sep e.2.2.2 = true ∧ e.2.1 ≠ [] ∧
      FeedFilter.Stripped (e.1 ++ e.2.1 ++ e.2.2.1) e.2.1) :
    Tokens.tokens sep (listText l) = l.map (fun e => e.2.1) := by
  induction l with
  | nil => rfl
  | cons e l ih =>
    obtain ⟨a, w, b, c⟩ := e
    obtain ⟨h1, h2, h3, h4⟩ := h (a, w, b, c) (by simp)
    dsimp only at h1 h2 h3 h4
    have ih' := ih (fun e he => h e (List.mem_cons_of_mem _ he))
    unfold Tokens.tokens at ih' ⊢
    rw [listText, pieces_word sep _ h1 c h2, List.reverse_nil, List.nil_append, if_neg (by simp [h3]), List.map_append,
      List.filter_append, ih', List.map_singleton, FeedFilter.stripped_unique (FeedFilter.trim_stripped _) h4 h3, List.map_cons,
      List.filter_cons_of_pos (by cases w with | nil => exact absurd rfl h3 | cons => rfl)]
    rfl

theorem when_parse (w : When) (h : w.Valid) (m0 : Option Int) :
    ∃ hh m, parseTime m0 w.text = some (hh, m) ∧ ∀ id days cmd param,
      (tasksAt id hh m days cmd param).map shownTime = w.times ∧
      ∀ t ∈ tasksAt id hh m days cmd param, t.id = id ∧ t.days = days ∧ t.command = cmd ∧ t.param = param := by
  cases w with
  | clock hs ms =>
    obtain ⟨h1, h2, h3, h4⟩ := h
    refine ⟨_, _, time_clock m0 hs ms h1 h2 h3 h4, ?_⟩
    intro id days cmd param
    have hne : ¬ ((valueIn 10 hs : Int) = -2) := by omega
    have hne1 : ¬ ((valueIn 10 hs : Int) = -1) := by omega
    unfold tasksAt
    rw [if_neg hne]
    refine ⟨?_, ?_⟩
    · simp only [List.map_cons, List.map_nil, shownTime, When.times]
      rw [if_neg hne1]
    · intro t ht
      rw [List.mem_singleton.mp ht]
      exact ⟨rfl, rfl, rfl, rfl⟩
  | hourly ms =>
    obtain ⟨h2, h4⟩ := h
    refine ⟨_, _, time_every_hour m0 ms h2 h4, ?_⟩
    intro id days cmd param
    unfold tasksAt
    rw [if_pos rfl]
    refine ⟨?_, ?_⟩
    · rw [List.map_map, When.times]
      apply List.map_congr_left
      intro k _
      have hne1 : ¬ ((k : Int) = -1) := by omega
      simp only [Function.comp_apply, shownTime]
      rw [if_neg hne1]
    · intro t ht
      obtain ⟨k, _, rfl⟩ := List.mem_map.mp ht
      exact ⟨rfl, rfl, rfl, rfl⟩
  | start =>
    refine ⟨_, _, time_startup m0, ?_⟩
    intro id days cmd param
    unfold tasksAt
    rw [if_neg (by decide)]
    refine ⟨rfl, ?_⟩
    intro t ht
    rw [List.mem_singleton.mp ht]
    exact ⟨rfl, rfl, rfl, rfl⟩

theorem timeLoop_prefix (id days : Nat) (cmd : Int) (param : Option Bytes) (ws : List When) (hv : ∀ w ∈ ws, w.Valid) (rest : List Bytes) :
    ∀ m0, ∃ m1, ∃ added : List NewTask, timeLoop id days cmd param m0 (ws.map When.text ++ rest) =
        (added ++ (timeLoop id days cmd param m1 rest).1, (timeLoop id days cmd param m1 rest).2) ∧
      added.map shownTime = ws.flatMap When.times ∧
      ∀ t ∈ added, t.id = id ∧ t.days = days ∧ t.command = cmd ∧ t.param = param := by
  induction ws with
  | nil => intro m0; exact ⟨m0, [], rfl, rfl, fun _ h => nomatch h⟩
  | cons w ws ih =>
    intro m0
    obtain ⟨hh, m, h1, h2⟩ := when_parse w (hv w (by simp)) m0
    obtain ⟨m1, added, g1, g2, g3⟩ := ih (fun x hx => hv x (List.mem_cons_of_mem _ hx)) m
    obtain ⟨k1, k2⟩ := h2 id days cmd param
    refine ⟨m1, tasksAt id hh m days cmd param ++ added, ?_, ?_, ?_⟩
    · rw [List.map_cons, List.cons_append, timeLoop, h1]
      dsimp only
      rw [g1, List.append_assoc]
    · rw [List.map_append, k1, g2, List.flatMap_cons]
    · intro t ht
      rcases List.mem_append.mp ht with ht | ht
      · exact k2 t ht
      · exact g3 t ht

theorem when_text_chars (w : When) (h : w.Valid) : w.text ≠ [] ∧ (∀ x ∈ w.text, timeSep x = false ∧ FeedFilter.isBlank x = false) := by
  have hd : ∀ ds, Digits ds → ∀ x ∈ ds, timeSep x = false ∧ FeedFilter.isBlank x = false := by
    intro ds hds x hx
    have hx := hds.2 x hx
    have : ∀ n : Fin 256, 48 ≤ n.val ∧ n.val ≤ 57 → timeSep (UInt8.ofNat n) = false ∧ FeedFilter.isBlank (UInt8.ofNat n) = false := by
      decide +kernel
    have g := this ⟨x.toNat, x.toNat_lt⟩ hx
    simpa using g
  cases w with
  | clock hs ms =>
    obtain ⟨h1, h2, _, _⟩ := h
    refine ⟨by simp [When.text, lit], ?_⟩
    intro x hx
    rw [When.text] at hx
    rcases List.mem_append.mp hx with hx | hx
    · rcases List.mem_append.mp hx with hx | hx
      · exact hd hs h1 x hx
      · have : x = 58 := by simpa [lit] using hx
        subst this; decide
    · exact hd ms h2 x hx
  | hourly ms =>
    refine ⟨by simp [When.text, lit], ?_⟩
    intro x hx
    rw [When.text] at hx
    rcases List.mem_append.mp hx with hx | hx
    · have : x = 42 ∨ x = 58 := by simpa [lit] using hx
      rcases this with rfl | rfl <;> decide
    · exact hd ms h.1 x hx
  | start => refine ⟨by decide, by decide⟩

theorem times_tokens (l : List (Bytes × When × Bytes × UInt8)) (hv : ∀ e ∈ l, e.2.1.Valid)
    (hw : ∀ e ∈ l, (∀ b ∈ e.1 ++ e.2.2.1, b = 32 ∨ b = 9) ∧ (e.2.2.2 = 44 ∨ e.2.2.2 = 59)) :
    Tokens.tokens timeSep (listText (l.map (fun e => (e.1, e.2.1.text, e.2.2.1, e.2.2.2)))) = (l.map (·.2.1)).map When.text := by
  rw [tokens_list]
  · rw [List.map_map, List.map_map]; rfl
  · intro e he
    obtain ⟨e', he', rfl⟩ := List.mem_map.mp he
    obtain ⟨a, w, b, c⟩ := e'
    obtain ⟨h1, h2⟩ := hw _ he'
    obtain ⟨t1, t2⟩ := when_text_chars w (hv _ he')
    dsimp only at h1 h2 ⊢
    have hbl : ∀ x, x = 32 ∨ x = 9 → timeSep x = false ∧ FeedFilter.isBlank x = true := by
      intro x hx
      rcases hx with rfl | rfl <;> decide
    refine ⟨?_, ?_, t1, ?_⟩
    · intro x hx
      rcases List.mem_append.mp hx with hx | hx
      · rcases List.mem_append.mp hx with hx | hx
        · exact (hbl x (h1 x (List.mem_append_left _ hx))).1
        · exact (t2 x hx).1
      · exact (hbl x (h1 x (List.mem_append_right _ hx))).1
    · rcases h2 with h2 | h2 <;> rw [h2] <;> decide
    · refine ⟨a, b, rfl, ?_, ?_, ?_, ?_⟩
      · intro x hx
        rcases h1 x (List.mem_append_left _ hx) with rfl | rfl <;> simp [FeedFilter.Blank]
      · intro x hx
        rcases h1 x (List.mem_append_right _ hx) with rfl | rfl <;> simp [FeedFilter.Blank]
      · intro x hx hb
        have := (t2 x (List.mem_of_mem_head? hx)).2
        rw [(FeedFilter.isBlank_iff x).2 hb] at this
        exact nomatch this
      · intro x hx hb
        have := (t2 x (List.mem_of_mem_getLast? hx)).2
        rw [(FeedFilter.isBlank_iff x).2 hb] at this
        exact nomatch this

theorem tokens_snoc (sep : UInt8 → Bool) (s : Bytes) (c : UInt8) (hc : sep c = true) :
    Tokens.tokens sep (s ++ [c]) = Tokens.tokens sep s := by
  have key : ∀ cur : Bytes, Tokens.pieces sep cur (s ++ [c]) = Tokens.pieces sep cur s := by
    induction s with
    | nil =>
      intro cur
      simp [Tokens.pieces, hc]
    | cons x s ih =>
      intro cur
      rw [List.cons_append, Tokens.pieces, Tokens.pieces, ih, ih]
  unfold Tokens.tokens
  rw [key]

/-- A list of times as a user writes it: commas or semicolons between the times, blanks anywhere around them. -/
def Written (l : List (Bytes × When × Bytes × UInt8)) (text : Bytes) : Prop :=
  (∀ e ∈ l, (∀ b ∈ e.1 ++ e.2.2.1, b = 32 ∨ b = 9) ∧ (e.2.2.2 = 44 ∨ e.2.2.2 = 59)) ∧
  (listText (l.map (fun e => (e.1, e.2.1.text, e.2.2.1, e.2.2.2))) = text ∨
    ∃ c, (c = 44 ∨ c = 59) ∧ listText (l.map (fun e => (e.1, e.2.1.text, e.2.2.1, e.2.2.2))) = text ++ [c])

theorem written_tokens (l : List (Bytes × When × Bytes × UInt8)) (text : Bytes) (hv : ∀ e ∈ l, e.2.1.Valid) (h : Written l text) :
    Tokens.tokens timeSep text = (l.map (·.2.1)).map When.text := by
  obtain ⟨h1, h2⟩ := h
  rw [← times_tokens l hv h1]
  rcases h2 with h2 | ⟨c, hc, h2⟩
  · rw [h2]
  · rw [h2, tokens_snoc]
    rcases hc with rfl | rfl <;> decide

/-- The weekdays of an option, `none` if it is not set: the bits for the scheduler. -/
theorem days_bits (days : Option (List Item)) (hd : ∀ l, days = some l → ∀ i ∈ l, i.Valid) :
    ∃ bits, (∀ (id : Nat) (time : Bytes) (cmd : Int) (param : Option Bytes),
        createTask id time (days.map daysText) cmd param = timeLoop id bits cmd param none (Tokens.tokens timeSep time)) ∧
      ∀ x, bits.testBit x = true ↔ ∃ i ∈ days.getD [], i.Covers (x + 1) := by
  cases days with
  | none => exact ⟨0, fun _ _ _ _ => rfl, fun x => by simp⟩
  | some l =>
    obtain ⟨bits, h1, h2⟩ := weekDays_list l (hd l rfl)
    refine ⟨bits, ?_, h2⟩
    intro id time cmd param
    rw [Option.map_some, createTask, h1]

/-- C101: a definition adds exactly the tasks for the times which it lists, in their order, on the days which it lists. -/
theorem task_definition (id : Nat) (l : List (Bytes × When × Bytes × UInt8)) (hv : ∀ e ∈ l, e.2.1.Valid) (time : Bytes)
    (hw : Written l time) (days : Option (List Item)) (hd : ∀ l, days = some l → ∀ i ∈ l, i.Valid) (cmd : Int) (param : Option Bytes) :
    ∃ added, createTask id time (days.map daysText) cmd param = (added, false) ∧
      added.map shownTime = l.flatMap (·.2.1.times) ∧
      ∀ t ∈ added, t.id = id ∧ t.command = cmd ∧ t.param = param ∧
        ∀ x, t.days.testBit x = true ↔ ∃ i ∈ days.getD [], i.Covers (x + 1) := by
  obtain ⟨bits, h1, h2⟩ := days_bits days hd
  obtain ⟨m1, added, g1, g2, g3⟩ := timeLoop_prefix id bits cmd param (l.map (·.2.1)) (by
    intro w hw
    obtain ⟨e, he, rfl⟩ := List.mem_map.mp hw
    exact hv e he) [] none
  rw [List.append_nil] at g1
  refine ⟨added, ?_, ?_, ?_⟩
  · rw [h1, written_tokens l time hv hw, g1]
    simp [timeLoop]
  · rw [g2, List.flatMap_map]
  · intro t ht
    obtain ⟨k1, k2, k3, k4⟩ := g3 t ht
    exact ⟨k1, k3, k4, by rw [k2]; exact h2⟩

/-- The weekday of a local time in seconds since 1970: 1 is Monday (1 January 1970 was a Thursday). -/
def weekday (a : Int) : Nat := ((a / 86400 + 3) % 7).toNat + 1

/-- What the scheduler keeps of a task (nzbget.cpp:1024-1029, Scheduler.h:50-54). -/
def toTask (t : NewTask) : Scheduler.Task := ⟨t.hours, t.minutes.getD 0, t.days, 0⟩

/-- C101: together with C19, a task of a definition is due at exactly the times and on the days which the option says,
every day if it says none. -/
theorem task_due (t : NewTask) (items : List Item) (hd : ∀ x, t.days.testBit x = true ↔ ∃ i ∈ items, i.Covers (x + 1))
    (hv : ∀ i ∈ items, i.Valid) (m : Int) (hm : t.minutes = some m) (a : Int) :
    Scheduler.Due (toTask t) a ↔
      a % 86400 = 3600 * t.hours + 60 * m ∧ (items = [] ∨ ∃ i ∈ items, i.Covers (weekday a)) := by
  unfold Scheduler.Due toTask weekday
  dsimp only
  rw [hm, Option.getD_some, hd]
  have h0 : t.days = 0 ↔ items = [] := by
    constructor
    · intro h
      cases items with
      | nil => rfl
      | cons i l =>
        exfalso
        have hi := hv i (by simp)
        have : ∃ x, i.Covers (x + 1) := by
          cases i with
          | day d => exact ⟨d - 1, by have := hi.1; unfold Item.Covers; omega⟩
          | range a b => exact ⟨a - 1, by have h1 := hi.1; have h2 := hi.2.1; unfold Item.Covers; omega⟩
        obtain ⟨x, hx⟩ := this
        have := (hd x).2 ⟨i, by simp, hx⟩
        rw [h] at this
        simp at this
    · intro h
      apply Nat.eq_of_testBit_eq
      intro x
      rw [Nat.zero_testBit, ← Bool.not_eq_true]
      intro g
      obtain ⟨i, hi, _⟩ := (hd x).1 g
      rw [h] at hi
      exact nomatch hi
  rw [h0]

/-- C101, refuted: if a time of the list is invalid, an error is reported and the times before it get their tasks. -/
theorem earlier_times_kept (id days : Nat) (cmd : Int) (param : Option Bytes) (ws : List When) (hv : ∀ w ∈ ws, w.Valid) (bad : Bytes)
    (hb : ∀ m, parseTime m bad = none) (rest : List Bytes) (m0 : Option Int) :
    ∃ added, timeLoop id days cmd param m0 (ws.map When.text ++ bad :: rest) = (added, true) ∧
      added.map shownTime = ws.flatMap When.times := by
  obtain ⟨m1, added, g1, g2, _⟩ := timeLoop_prefix id days cmd param ws hv (bad :: rest) m0
  refine ⟨added, ?_, g2⟩
  rw [g1, timeLoop, hb m1]
  simp

/-- C101: invalid weekdays are reported and no task is added. -/
theorem bad_days (id : Nat) (time w : Bytes) (cmd : Int) (param : Option Bytes) (h : parseWeekDays w = none) :
    createTask id time (some w) cmd param = ([], true) := by
  unfold createTask; dsimp only; rw [h]

theorem timeLoop_range (id days : Nat) (cmd : Int) (param : Option Bytes) (ts : List Bytes) : ∀ (m0 : Option Int),
    (∀ k, m0 = some k → 0 ≤ k ∧ k ≤ 59) → ∀ t ∈ (timeLoop id days cmd param m0 ts).1,
      t.id = id ∧ t.days = days ∧ t.command = cmd ∧ t.param = param ∧ -1 ≤ t.hours ∧ t.hours ≤ 23 ∧
      (∀ k, t.minutes = some k → 0 ≤ k ∧ k ≤ 59) ∧ (t.minutes = none → t.hours = -1) := by
  induction ts with
  | nil => intro m0 _ t ht; exact nomatch ht
  | cons s ts ih =>
    intro m0 hm t ht
    rw [timeLoop] at ht
    cases hp : parseTime m0 s with
    | none => rw [hp] at ht; exact nomatch ht
    | some r =>
      obtain ⟨h, m⟩ := r
      rw [hp] at ht
      dsimp only at ht
      have hr := time_range m0 s h m hp
      have hm' : ∀ k, m = some k → 0 ≤ k ∧ k ≤ 59 := by
        intro k hk
        rcases hr with ⟨_, _, h3⟩ | ⟨_, k', h4, h5⟩
        · exact hm k (by rw [← h3]; exact hk)
        · rw [h4] at hk; cases hk; exact h5
      rcases List.mem_append.mp ht with ht | ht
      · unfold tasksAt at ht
        by_cases e : h = -2
        · rw [if_pos e] at ht
          obtain ⟨k, hk, rfl⟩ := List.mem_map.mp ht
          have hk' := List.mem_range.mp hk
          refine ⟨rfl, rfl, rfl, rfl, by dsimp only; omega, by dsimp only; omega, hm', ?_⟩
          intro hn
          dsimp only at hn
          rcases hr with ⟨_, h2, _⟩ | ⟨_, k', h4, _⟩
          · omega
          · rw [h4] at hn; exact nomatch hn
        · rw [if_neg e] at ht
          rw [List.mem_singleton.mp ht]
          refine ⟨rfl, rfl, rfl, rfl, ?_, ?_, hm', ?_⟩
          · dsimp only
            rcases hr with ⟨_, h2, _⟩ | ⟨h2, _⟩ <;> omega
          · dsimp only
            rcases hr with ⟨_, h2, _⟩ | ⟨h2, _⟩ <;> omega
          · intro hn
            dsimp only at hn ⊢
            rcases hr with ⟨_, h2, _⟩ | ⟨_, k', h4, _⟩
            · exact h2
            · rw [h4] at hn; exact nomatch hn
      · exact ih m hm' t ht

/-! ### The definition of a task -/

theorem commandTable_proper : Proper commandTable ∧ Counted commandTable := by decide +kernel

/-- A command which needs a parameter: script, process, activate or deactivate a server, fetch a feed. -/
def NeedsParam (cmd : Int) : Prop := cmd = 5 ∨ cmd = 6 ∨ cmd = 9 ∨ cmd = 10 ∨ cmd = 11

/-- C101: whatever the options are, every task which is added has a time of the day or is one for the start, days of the week,
one of the twelve commands, a parameter if the command needs one, and a number of KB if it sets the speed. -/
theorem task_sane (get : Env) (n : Nat) (t : NewTask) (h : t ∈ (initTask get n).added) :
    t.id = n ∧ -1 ≤ t.hours ∧ t.hours ≤ 23 ∧ (∀ k, t.minutes = some k → 0 ≤ k ∧ k ≤ 59) ∧ (t.minutes = none → t.hours = -1) ∧
    (∀ x, t.days.testBit x = true → x < 7) ∧
    (NeedsParam t.command → ∃ p, t.param = some p ∧ p ≠ []) ∧
    (t.command = 4 → ∃ p, t.param = some p ∧ (p = [] ∨ ∃ v, Writes 10 p v)) ∧ t.param = taskParam get n := by
  unfold initTask at h
  cases h1 : val get (key "Task" n ".Time") with
  | none => rw [h1] at h; exact nomatch h
  | some time =>
    cases h2 : get (key "Task" n ".Command") with
    | none => rw [h1, h2] at h; exact nomatch h
    | some c =>
      obtain ⟨cv, cd⟩ := c
      rw [h1, h2] at h
      dsimp only at h
      cases h3 : parseEnum commandTable cv cd with
      | none => rw [h3] at h; exact nomatch h
      | some r =>
        rw [h3] at h
        dsimp only at h
        by_cases c1 : (!emptyStr (taskParam get n) && decide (r.num = 6) && (CmdLine.split ((taskParam get n).getD [])).isEmpty) = true
        · rw [if_pos c1] at h; exact nomatch h
        · rw [if_neg c1] at h
          by_cases c2 : r.num = 4 ∧ taskParam get n = none
          · rw [if_pos c2] at h; exact nomatch h
          · rw [if_neg c2] at h
            by_cases c3 : r.num = 4 ∧ badRate ((taskParam get n).getD []) = true
            · rw [if_pos c3] at h; exact nomatch h
            · rw [if_neg c3] at h
              by_cases c4 : (r.num = 5 ∨ r.num = 6 ∨ r.num = 9 ∨ r.num = 10 ∨ r.num = 11) ∧ emptyStr (taskParam get n) = true
              · rw [if_pos c4] at h; exact nomatch h
              · rw [if_neg c4] at h
                dsimp only at h
                have hb : ∃ bits, (∀ x, bits.testBit x = true → x < 7) ∧
                    t ∈ (timeLoop n bits r.num (taskParam get n) none (Tokens.tokens timeSep time)).1 := by
                  unfold createTask at h
                  cases hw : val get (key "Task" n ".WeekDays") with
                  | none => rw [hw] at h; exact ⟨0, fun x hx => by simp at hx, h⟩
                  | some w =>
                    rw [hw] at h
                    dsimp only at h
                    cases hp : parseWeekDays w with
                    | none => rw [hp] at h; exact nomatch h
                    | some b => rw [hp] at h; exact ⟨b, (weekDays_accepted w b hp).1, h⟩
                obtain ⟨bits, hb1, hb2⟩ := hb
                obtain ⟨t1, t2, t3, t4, t5, t6, t7, t8⟩ := timeLoop_range n bits r.num (taskParam get n) _ none (fun _ e => nomatch e) t hb2
                refine ⟨t1, t5, t6, t7, t8, by rw [t2]; exact hb1, ?_, ?_, t4⟩
                · intro hn
                  rw [t3] at hn
                  rw [t4]
                  cases hq : taskParam get n with
                  | none => exact absurd ⟨hn, by rw [hq]; rfl⟩ c4
                  | some p =>
                    refine ⟨p, rfl, ?_⟩
                    intro e
                    exact c4 ⟨hn, by rw [hq, e]; rfl⟩
                · intro h4
                  rw [t3] at h4
                  rw [t4]
                  cases hq : taskParam get n with
                  | none => exact absurd ⟨h4, hq⟩ c2
                  | some p =>
                    refine ⟨p, rfl, ?_⟩
                    have hbr : ¬ badRate p = true := fun e => c3 ⟨h4, by rw [hq]; exact e⟩
                    unfold badRate at hbr
                    rw [Bool.or_eq_true, decide_eq_true_eq] at hbr
                    have : (strtol 10 p).2 = [] := Classical.byContradiction (fun e => hbr (Or.inl e))
                    exact strtol_end 10 p this

/-- C101: a complete definition with a known command and the parameter it needs adds exactly its tasks, without an error. -/
theorem task_complete (get : Env) (n : Nat) (time cv cd name : Bytes) (cmd : Int)
    (h1 : val get (key "Task" n ".Time") = some time) (h2 : get (key "Task" n ".Command") = some (cv, cd))
    (hs : Stands commandTable name cmd) (hn : Same cv name)
    (hp : NeedsParam cmd → ∃ p, taskParam get n = some p ∧ p ≠ [])
    (hx : cmd = 6 → CmdLine.split ((taskParam get n).getD []) ≠ [])
    (hr : cmd = 4 → ∃ p v, taskParam get n = some p ∧ Writes 10 p v ∧ 0 ≤ v ∧ v < 2 ^ 31)
    (l : List (Bytes × When × Bytes × UInt8)) (hv : ∀ e ∈ l, e.2.1.Valid) (hw : Written l time) (days : Option (List Item))
    (hd : ∀ l, days = some l → ∀ i ∈ l, i.Valid) (hdt : val get (key "Task" n ".WeekDays") = days.map daysText) :
    ∃ added, initTask get n = ⟨added, false, false⟩ ∧ added.map shownTime = l.flatMap (·.2.1.times) ∧
      ∀ t ∈ added, t.id = n ∧ t.command = cmd ∧ t.param = taskParam get n ∧
        ∀ x, t.days.testBit x = true ↔ ∃ i ∈ days.getD [], i.Covers (x + 1) := by
  obtain ⟨w, e1, _⟩ := enum_known commandTable commandTable_proper.1 (by decide) cv cd name cmd hs hn
  obtain ⟨added, k1, k2, k3⟩ := task_definition n l hv time hw days hd cmd (taskParam get n)
  refine ⟨added, ?_, k2, k3⟩
  unfold initTask
  rw [h1, h2]
  dsimp only
  rw [e1]
  dsimp only
  rw [if_neg, if_neg, if_neg, if_neg]
  · rw [hdt, k1]; rfl
  · rintro ⟨g1, g2⟩
    obtain ⟨p, q1, q2⟩ := hp g1
    rw [q1] at g2
    exact q2 (by simpa [emptyStr] using g2)
  · rintro ⟨g1, g2⟩
    obtain ⟨p, v, q1, q2, q3, q4⟩ := hr g1
    rw [q1, Option.getD_some] at g2
    unfold badRate at g2
    rw [strtol_writes 10 (by omega) p v q2, Bool.or_eq_true, decide_eq_true_eq, decide_eq_true_eq, clamp_int32 v (by omega)] at g2
    rcases g2 with g2 | g2
    · exact g2 rfl
    · omega
  · rintro ⟨g1, g2⟩
    obtain ⟨p, v, q1, _⟩ := hr g1
    rw [q1] at g2
    exact nomatch g2
  · intro g
    rw [Bool.and_eq_true, Bool.and_eq_true, decide_eq_true_eq] at g
    exact hx g.1.2 (List.isEmpty_iff.mp g.2)

/-- C101: a definition without a time or a command is reported and adds nothing. -/
theorem task_incomplete (get : Env) (n : Nat)
    (h : get (key "Task" n ".Time") = none ∨ get (key "Task" n ".Command") = none) : initTask get n = ⟨[], true, false⟩ := by
  unfold initTask
  rcases h with h | h
  · have : val get (key "Task" n ".Time") = none := by unfold val; rw [h]; rfl
    rw [this]
  · rw [h]
    cases val get (key "Task" n ".Time") <;> rfl

/-- C101, refuted: a command which the program does not know is reported, but the task is added and pauses the download (the
command 0) if the option was set once. -/
theorem unknown_command_pauses (get : Env) (n : Nat) (time cv : Bytes) (hv : ∀ c ∈ commandTable.names, ¬ Same cv c)
    (h1 : val get (key "Task" n ".Time") = some time) (h2 : get (key "Task" n ".Command") = some (cv, cv)) :
    (initTask get n).added = (createTask n time (val get (key "Task" n ".WeekDays")) 0 (taskParam get n)).1 ∧ (initTask get n).error = true := by
  have e : parseEnum commandTable cv cv = some ⟨0, lit "pausedownload", true⟩ :=
    enum_no_default commandTable commandTable_proper.1 commandTable_proper.2 cv cv _ _ hv hv rfl rfl
  unfold initTask
  rw [h1, h2]
  dsimp only
  rw [e]
  dsimp only
  rw [if_neg (by simp), if_neg (by simp), if_neg (by simp), if_neg (by simp)]
  exact ⟨rfl, rfl⟩

/-- C101, refuted: an invalid speed in the option Param makes the program format a null pointer, unless the old option
DownloadRate is set too. -/
theorem bad_rate_null (get : Env) (n : Nat) (time cv cd p : Bytes) (name : Bytes) (hs : Stands commandTable name 4) (hn : Same cv name)
    (h1 : val get (key "Task" n ".Time") = some time) (h2 : get (key "Task" n ".Command") = some (cv, cd))
    (h3 : val get (key "Task" n ".Param") = some p) (hp : p ≠ []) (hw : ¬ ∃ v, Writes 10 p v)
    (h4 : get (key "Task" n ".DownloadRate") = none) : initTask get n = ⟨[], true, true⟩ := by
  obtain ⟨w, e1, _⟩ := enum_known commandTable commandTable_proper.1 (by decide) cv cd name 4 hs hn
  have hne : emptyStr (some p) = false := by
    unfold emptyStr
    rw [Option.getD_some]
    exact beq_eq_false_iff_ne.mpr hp
  have htp : taskParam get n = some p := by
    unfold taskParam
    rw [h3]
    dsimp only
    rw [hne, Bool.false_and, if_neg Bool.false_ne_true, hne, Bool.false_and, if_neg Bool.false_ne_true]
  have hb : badRate p = true := by
    unfold badRate
    rw [Bool.or_eq_true, decide_eq_true_eq]
    left
    intro g
    rcases strtol_end 10 p g with g | g
    · exact hp g
    · exact hw g
  unfold initTask
  rw [h1, h2]
  dsimp only
  rw [e1]
  dsimp only
  rw [htp, if_neg (by simp), if_neg (by simp), if_pos ⟨rfl, hb⟩]
  have : val get (key "Task" n ".DownloadRate") = none := by unfold val; rw [h4]; rfl
  rw [this]
  rfl

/-- The documented words of the commands with the number of each command, which is its place in Scheduler::ECommand. -/
def documented : List (Int × List String) :=
  [(0, ["PauseDownload", "Pause"]), (1, ["UnpauseDownload", "ResumeDownload", "Unpause", "Resume"]),
   (2, ["PausePostProcess", "PausePost"]), (3, ["UnpausePostProcess", "ResumePostProcess", "UnpausePost", "ResumePost"]),
   (4, ["DownloadRate", "SetDownloadRate", "Rate", "Speed"]), (5, ["Script"]), (6, ["Process"]), (7, ["PauseScan"]),
   (8, ["UnpauseScan", "ResumeScan"]), (9, ["ActivateServer", "ActivateServers"]), (10, ["DeactivateServer", "DeactivateServers"]),
   (11, ["FetchFeed", "FetchFeeds"])]

/-- C101: the words of the commands mean what is documented, in any case, and there are no others. -/
theorem command_words : (∀ d ∈ documented, ∀ w ∈ d.2, ∀ cv, Same cv (lit w) → ∃ name, Stands commandTable name d.1 ∧ Same cv name) ∧
    ∀ name v, Stands commandTable name v → ∃ d ∈ documented, d.1 = v ∧ ∃ w ∈ d.2, Same name (lit w) := by
  constructor
  · have key : ∀ d ∈ documented, ∀ w ∈ d.2, ∃ i : Fin 27, ∃ n, commandTable.names[i.val]? = some n ∧ commandTable.vals[i.val]? = some d.1 ∧ Same (lit w) n := by
      have : ∀ d ∈ documented, ∀ w ∈ d.2, ∃ i : Fin 27, commandTable.vals[i.val]? = some d.1 ∧ Same (lit w) (commandTable.names[i.val]'(i.isLt)) := by
        decide +kernel
      intro d hd w hw
      obtain ⟨i, h1, h2⟩ := this d hd w hw
      exact ⟨i, _, List.getElem?_eq_getElem _, h1, h2⟩
    intro d hd w hw cv hs
    obtain ⟨i, n, h1, h2, h3⟩ := key d hd w hw
    exact ⟨n, ⟨i.val, h1, h2⟩, Eq.trans hs h3⟩
  · rintro name v ⟨i, h1, h2⟩
    have hi : i < 27 := (List.getElem?_eq_some_iff.mp h2).1
    have key : ∀ i : Fin 27, ∃ d ∈ documented, commandTable.vals[i.val]? = some d.1 ∧ ∃ w ∈ d.2, Same (commandTable.names[i.val]'(i.isLt)) (lit w) := by
      decide +kernel
    obtain ⟨d, hd, g1, w, hw, g2⟩ := key ⟨i, hi⟩
    obtain ⟨_, e⟩ := List.getElem?_eq_some_iff.mp h1
    dsimp only at g1
    rw [h2, Option.some.injEq] at g1
    have e' : commandTable.names[(⟨i, hi⟩ : Fin 27).val]'(hi) = name := e
    exact ⟨d, hd, g1.symm, w, hw, e' ▸ g2⟩

/-! ### The numbers of the sections -/

/-- C101: sections are read with the numbers 1, 2, ... up to the first one without a definition; those after it have no
effect. -/
theorem sections_spec {α : Type} (defined : Nat → Bool) (act : Nat → α) (N : Nat) (h : ∀ n, 1 ≤ n → n ≤ N → defined n = true)
    (hN : defined (N + 1) = false) (fuel : Nat) (hf : N < fuel) :
    sections defined act fuel 1 = (List.range' 1 N).map act := by
  have key : ∀ (k n fuel : Nat), n + k = N + 1 → 1 ≤ n → k < fuel → sections defined act fuel n = (List.range' n k).map act := by
    intro k
    induction k with
    | zero =>
      intro n fuel h1 h2 h3
      cases fuel with
      | zero => omega
      | succ f =>
        have : n = N + 1 := by omega
        rw [sections, this, hN, if_neg Bool.false_ne_true]
        rfl
    | succ k ih =>
      intro n fuel h1 h2 h3
      cases fuel with
      | zero => omega
      | succ f =>
        rw [sections, h n h2 (by omega), if_pos rfl, ih (n + 1) f (by omega) (by omega) (by omega), List.range'_succ, List.map_cons]
  exact key N 1 fuel (by omega) (by omega) hf

/-- The options of a store. -/
def envOf (s : Store) : Env := fun n => (lookup s n).bind (fun e => e.value.map (fun v => (v, e.dflt.getD v)))

theorem envOf_length (s : Store) : ∃ K, ∀ n p, envOf s n = some p → n.length ≤ K := by
  induction s with
  | nil => exact ⟨0, fun n p h => nomatch h⟩
  | cons e s ih =>
    obtain ⟨K, hK⟩ := ih
    refine ⟨max K e.name.length, ?_⟩
    intro n p h
    unfold envOf at h
    rw [lookup_cons] at h
    by_cases g : Same e.name n
    · have := congrArg List.length g
      rw [List.length_map, List.length_map] at this
      omega
    · rw [if_neg g] at h
      have := hK n p h
      omega

theorem digits_length (f : Nat) : ∀ n, n < f → n < 10 ^ (decAux f n).length := by
  induction f with
  | zero => intro n h; omega
  | succ f ih =>
    intro n h
    rw [decAux, List.length_append, List.length_singleton]
    by_cases g : n < 10
    · rw [if_pos g]; simpa using g
    · rw [if_neg g, Nat.pow_succ]
      have := ih (n / 10) (by omega)
      omega

theorem key_length (word e : String) (n K : Nat) (h : (key word n e).length ≤ K) : n < 10 ^ K := by
  unfold key at h
  rw [List.length_append, List.length_append] at h
  have h1 := digits_length (n + 1) n (by omega)
  exact Nat.lt_of_lt_of_le h1 (Nat.pow_le_pow_right (by omega) (by unfold dec at h; omega))

theorem first_missing (p : Nat → Bool) (K : Nat) (hK : ∀ n, p n = true → n < K) :
    ∃ N, (∀ n, 1 ≤ n → n ≤ N → p n = true) ∧ p (N + 1) = false := by
  have key : ∀ (j n : Nat), n + j = K → (∀ m, 1 ≤ m → m ≤ n → p m = true) → ∃ N, (∀ n, 1 ≤ n → n ≤ N → p n = true) ∧ p (N + 1) = false := by
    intro j
    induction j with
    | zero =>
      intro n h1 h2
      refine ⟨n, h2, ?_⟩
      rw [← Bool.not_eq_true]
      intro g
      have := hK _ g
      omega
    | succ j ih =>
      intro n h1 h2
      cases g : p (n + 1) with
      | false => exact ⟨n, h2, g⟩
      | true =>
        refine ih (n + 1) (by omega) ?_
        intro m hm1 hm2
        by_cases e : m = n + 1
        · rw [e]; exact g
        · exact h2 m hm1 (by omega)
  exact key K 0 (by omega) (fun m h1 h2 => by omega)

/-- C101: whatever the options are, the reading of the tasks ends. -/
theorem tasks_end (s : Store) : ∃ N, (∀ n, 1 ≤ n → n ≤ N → taskDefined (envOf s) n = true) ∧ taskDefined (envOf s) (N + 1) = false := by
  obtain ⟨K, hK⟩ := envOf_length s
  have hv : ∀ n e, (val (envOf s) (key "Task" n e)).isSome = true → n < 10 ^ K := by
    intro n e h
    unfold val at h
    cases g : envOf s (key "Task" n e) with
    | none => rw [g] at h; exact nomatch h
    | some p => exact key_length _ _ n K (hK _ p g)
  refine first_missing _ (10 ^ K) ?_
  intro n h
  unfold taskDefined at h
  rw [Bool.or_eq_true, Bool.or_eq_true, Bool.or_eq_true, Bool.or_eq_true] at h
  rcases h with (((h | h) | h) | h) | h
  · exact hv n _ h
  · exact hv n _ h
  · exact hv n _ h
  · exact hv n _ h
  · unfold taskParam at h
    dsimp only at h
    revert h
    split <;> split <;> intro h <;> exact hv n _ h

/-- C101: the tasks are those of the sections 1, 2, ... up to the first one without a definition, each read on its own. -/
theorem tasks_spec (get : Env) (N : Nat) (h : ∀ n, 1 ≤ n → n ≤ N → taskDefined get n = true) (hN : taskDefined get (N + 1) = false)
    (fuel : Nat) (hf : N < fuel) : initScheduler get fuel = (List.range' 1 N).map (initTask get) :=
  sections_spec (taskDefined get) (initTask get) N h hN fuel hf

/-- The option is set to a text which is not empty. -/
def Given (get : Env) (n : Bytes) (v : Bytes) : Prop := val get n = some v ∧ v ≠ []

def NotGiven (get : Env) (n : Bytes) : Prop := val get n = none ∨ val get n = some []

theorem emptyStr_given {get : Env} {n v : Bytes} (h : Given get n v) : emptyStr (val get n) = false := by
  rw [h.1]; simpa [emptyStr] using h.2

theorem emptyStr_not {get : Env} {n : Bytes} (h : NotGiven get n) : emptyStr (val get n) = true := by
  rcases h with h | h <;> rw [h] <;> rfl

/-- C101: the parameter is that of the option Param; if it is not given, that of the earlier options Process and DownloadRate. -/
theorem param_spec (get : Env) (n : Nat) :
    (∀ v, Given get (key "Task" n ".Param") v → taskParam get n = some v) ∧
    (NotGiven get (key "Task" n ".Param") → (∀ v, Given get (key "Task" n ".Process") v → taskParam get n = some v) ∧
      (NotGiven get (key "Task" n ".Process") → (∀ v, Given get (key "Task" n ".DownloadRate") v → taskParam get n = some v) ∧
        (NotGiven get (key "Task" n ".DownloadRate") → taskParam get n = val get (key "Task" n ".Param")))) := by
  unfold taskParam
  dsimp only
  refine ⟨fun v h => ?_, fun h => ⟨fun v h2 => ?_, fun h2 => ⟨fun v h3 => ?_, fun h3 => ?_⟩⟩⟩
  · have he := emptyStr_given h
    rw [he, Bool.false_and, if_neg Bool.false_ne_true, he, Bool.false_and, if_neg Bool.false_ne_true]
    exact h.1
  · rw [emptyStr_not h, emptyStr_given h2, Bool.not_false, Bool.and_true, if_pos rfl, emptyStr_given h2, Bool.false_and, if_neg Bool.false_ne_true]
    exact h2.1
  · rw [emptyStr_not h, emptyStr_not h2, Bool.not_true, Bool.and_false, if_neg Bool.false_ne_true, emptyStr_not h, emptyStr_given h3, Bool.not_false, Bool.and_true, if_pos rfl]
    exact h3.1
  · rw [emptyStr_not h, emptyStr_not h2, Bool.not_true, Bool.and_false, if_neg Bool.false_ne_true, emptyStr_not h, emptyStr_not h3,
      Bool.not_true, Bool.and_false, if_neg Bool.false_ne_true]

theorem tasksAt_ne (id : Nat) (h : Int) (m : Option Int) (days : Nat) (cmd : Int) (param : Option Bytes) : tasksAt id h m days cmd param ≠ [] := by
  unfold tasksAt
  split
  · intro e; simp at e
  · simp

/-- C101: a definition with a time which adds no task is reported. -/
theorem no_task_reported (get : Env) (n : Nat) (h : (initTask get n).added = [])
    (ht : ∀ time, val get (key "Task" n ".Time") = some time → ∃ t, Tokens.IsToken timeSep time t) : (initTask get n).error = true := by
  have key : ∀ id days cmd param ts, ts ≠ [] → (timeLoop id days cmd param none ts).1 = [] → (timeLoop id days cmd param none ts).2 = true := by
    intro id days cmd param ts hts
    cases ts with
    | nil => exact absurd rfl hts
    | cons t ts =>
      rw [timeLoop]
      cases parseTime none t with
      | none => intro _; rfl
      | some p =>
        obtain ⟨hh, m⟩ := p
        intro e
        have e : tasksAt id hh m days cmd param ++ _ = [] := e
        exact absurd (List.append_eq_nil_iff.1 e).1 (tasksAt_ne _ _ _ _ _ _)
  have key2 : ∀ id time wd cmd param, (∃ t, Tokens.IsToken timeSep time t) → (createTask id time wd cmd param).1 = [] →
      (createTask id time wd cmd param).2 = true := by
    intro id time wd cmd param ⟨t, hi⟩
    have hts : Tokens.tokens timeSep time ≠ [] := by
      intro e
      have := (Tokens.mem_tokens _ _ _).2 hi
      rw [e] at this
      exact nomatch this
    unfold createTask
    cases wd with
    | none => exact key _ _ _ _ _ hts
    | some w =>
      dsimp only
      cases parseWeekDays w with
      | none => intro _; rfl
      | some b => exact key _ _ _ _ _ hts
  revert h
  unfold initTask
  cases h1 : val get (TaskDef.key "Task" n ".Time") with
  | none => intro _; rfl
  | some time =>
    cases h2 : get (TaskDef.key "Task" n ".Command") with
    | none => intro _; rfl
    | some c =>
      obtain ⟨cv, cd⟩ := c
      dsimp only
      cases h3 : parseEnum commandTable cv cd with
      | none => intro _; rfl
      | some r =>
        dsimp only
        split
        · intro _; rfl
        · split
          · intro _; rfl
          · split
            · intro _; rfl
            · split
              · intro _; rfl
              · intro e
                have := key2 _ _ _ _ _ (ht time h1) e
                show (r.error || _) = true
                rw [this, Bool.or_true]

/-! ### Examples -/

/-- Options of two tasks, of which the second one has a gap before it. -/
def exStore : Store :=
  [("Task1.Time", "8:00, *:30"), ("Task1.WeekDays", "1-5"), ("Task1.Command", "Pause"), ("Task3.Time", "9:00"), ("Task3.Command", "Resume")].map
    (fun p => ⟨lit p.1, some (lit p.2), some (lit p.2)⟩)

example : ((initScheduler (envOf exStore) 10).map (fun o => (o.added.length, o.error))) = [(25, false)] := by decide +kernel
example : Written [([], .clock (lit "8") (lit "00"), [], 44), (lit " ", .hourly (lit "30"), [], 44)] (lit "8:00, *:30") := by
  refine ⟨by decide, Or.inr ⟨44, Or.inl rfl, by decide⟩⟩
example : ∀ e ∈ [(([] : Bytes), When.clock (lit "8") (lit "00"), ([] : Bytes), (44 : UInt8)), (lit " ", .hourly (lit "30"), [], 44)], e.2.1.Valid := by
  intro e he
  simp only [List.mem_cons, List.not_mem_nil, or_false] at he
  rcases he with rfl | rfl
  · exact ⟨⟨by decide, by decide⟩, ⟨by decide, by decide⟩, by decide, by decide⟩
  · exact ⟨⟨by decide, by decide⟩, by decide⟩
example : (createTask 1 (lit "8:00;25:00;9:00") none 0 none) = ([⟨1, 8, some 0, 0, 0, none⟩], true) := by decide +kernel
example : Given (envOf exStore) (key "Task" 1 ".WeekDays") (lit "1-5") ∧ NotGiven (envOf exStore) (key "Task" 1 ".Param") :=
  ⟨⟨by decide +kernel, by decide⟩, Or.inl (by decide +kernel)⟩
example : (initTask (envOf [⟨lit "Task1.Time", some (lit "8:00"), none⟩, ⟨lit "Task1.Command", some (lit "Script"), none⟩]) 1) = ⟨[], true, false⟩ := by
  decide +kernel
example : Stands commandTable (lit "rate") 4 := ⟨14, by decide +kernel, by decide +kernel⟩

end Verif.TaskDef
