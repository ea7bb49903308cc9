import Verif.MsgLog
/-! C113: the log shows the latest messages, and queries get the ones they ask for. -/
namespace Verif.MsgLog
open CStr

/-! ### Specification -/

/-- The last `n` of a list. -/
def LastN (n : Nat) (l r : List α) : Prop := ∃ p, l = p ++ r ∧ r.length = min n l.length

/-- What a message says. -/
def Msg.said (m : Msg) : Kind × Int × Bytes := (m.kind, m.time, m.text)

/-- The messages among the events which go to the screen. -/
def shown (c : Cfg) : List Event → List (Kind × Int × Bytes)
  | [] => []
  | .write k t x :: es => if c.target k = .screen ∨ c.target k = .both then (k, t, x.take 1023) :: shown c es else shown c es
  | _ :: es => shown c es

/-- The messages among the events which go to the file. -/
def filed (c : Cfg) : List Event → List (Kind × Bytes)
  | [] => []
  | .write k _ x :: es => if c.target k = .log ∨ c.target k = .both then (k, (tag k ++ [9] ++ x.take 1023).take 1023) :: filed c es else filed c es
  | _ :: es => filed c es

/-- Only messages and clearing. -/
def Usual (es : List Event) : Prop := ∀ e ∈ es, (∃ k t x, e = .write k t x) ∨ e = .clear
def Writes (es : List Event) : Prop := ∀ e ∈ es, ∃ k t x, e = .write k t x

/-- The ids are consecutive, the last one being the last id which was given. -/
def Numbered (s : Log) : Prop := s.msgs.length ≤ s.gen ∧ s.msgs.map (·.id) = List.range' (s.gen + 1 - s.msgs.length) s.msgs.length

/-! ### The messages in memory -/

theorem toScreen_iff (t : Target) : toScreen t = true ↔ t = .screen ∨ t = .both := by cases t <;> decide
theorem toFile_iff (t : Target) : toFile t = true ↔ t = .log ∨ t = .both := by cases t <;> decide

theorem trim_map (f : Msg → β) (n : Nat) (l : List Msg) : (trim n l).map f = (l.map f).drop ((l.map f).length - n) := by
  unfold trim
  rw [List.map_drop, List.length_map]

theorem lastN_drop (n : Nat) (l : List α) : LastN n l (l.drop (l.length - n)) := by
  refine ⟨l.take (l.length - n), (List.take_append_drop _ _).symm, ?_⟩
  rw [List.length_drop]
  omega

theorem lastN_eq {n : Nat} {l r : List α} (h : LastN n l r) : r = l.drop (l.length - n) := by
  obtain ⟨p, rfl, h⟩ := h
  rw [List.length_append] at *
  rw [show p.length + r.length - n = p.length by omega, List.drop_left]

theorem numbered_trim {msgs : List Msg} {gen n : Nat} (h1 : msgs.length ≤ gen) (h2 : msgs.map (·.id) = List.range' (gen + 1 - msgs.length) msgs.length) :
    (trim n msgs).length ≤ gen ∧ (trim n msgs).map (·.id) = List.range' (gen + 1 - (trim n msgs).length) (trim n msgs).length := by
  have hl : (trim n msgs).length = min n msgs.length := by
    unfold trim
    rw [List.length_drop]
    omega
  refine ⟨by omega, ?_⟩
  rw [trim_map, h2, List.length_range', hl, List.drop_range']
  congr 1 <;> omega

theorem numbered_add {s : Log} (h : Numbered s) (k : Kind) (t : Int) (x : Bytes) : Numbered (addMessage k t x s) := by
  obtain ⟨h1, h2⟩ := h
  have g1 : (s.msgs ++ [(⟨s.gen + 1, k, t, x⟩ : Msg)]).length ≤ s.gen + 1 := by simp; omega
  have g2 : (s.msgs ++ [(⟨s.gen + 1, k, t, x⟩ : Msg)]).map (·.id) = List.range' (s.gen + 1 + 1 - (s.msgs ++ [(⟨s.gen + 1, k, t, x⟩ : Msg)]).length) (s.msgs ++ [(⟨s.gen + 1, k, t, x⟩ : Msg)]).length := by
    have e1 : s.gen + 1 + 1 - (s.msgs ++ [(⟨s.gen + 1, k, t, x⟩ : Msg)]).length = s.gen + 1 - s.msgs.length := by
      rw [List.length_append, List.length_singleton]; omega
    rw [e1, List.map_append, h2, List.length_append, List.map_singleton, List.length_singleton, List.range'_concat]
    have e2 : s.gen + 1 - s.msgs.length + 1 * s.msgs.length = s.gen + 1 := by omega
    rw [e2]
  unfold addMessage Numbered
  dsimp only
  cases s.ready with
  | false => exact ⟨g1, g2⟩
  | true =>
    cases s.opts with
    | none => exact ⟨g1, g2⟩
    | some c => exact numbered_trim g1 g2

theorem filelog_same (k : Kind) (x : Bytes) (s : Log) : (filelog k x s).msgs = s.msgs ∧ (filelog k x s).gen = s.gen ∧ (filelog k x s).opts = s.opts ∧ (filelog k x s).ready = s.ready ∧
    (filelog k x s).named = s.named := by
  unfold filelog
  split <;> exact ⟨rfl, rfl, rfl, rfl, rfl⟩

theorem numbered_file {s : Log} (h : Numbered s) (k : Kind) (x : Bytes) : Numbered (filelog k x s) := by
  unfold Numbered
  rw [(filelog_same k x s).1, (filelog_same k x s).2.1]
  exact h

theorem initLoop_ids (c : Cfg) : ∀ (ms : List Msg) (gen : Nat), (initLoop c ms gen).1.map (·.id) = List.range' (gen + 1) (initLoop c ms gen).1.length
  | [], gen => rfl
  | m :: ms, gen => by
    unfold initLoop
    dsimp only
    split
    · rw [List.map_cons, initLoop_ids c ms (gen + 1), List.length_cons, List.range'_succ]
    · exact initLoop_ids c ms gen

/-- C113: the messages in memory have consecutive ids, after every history. -/
theorem ids_consecutive (es : List Event) : Numbered (run {} es) := by
  have key : ∀ (es : List Event) (s : Log), Numbered s → Numbered (run s es) := by
    intro es
    induction es with
    | nil => intro s h; exact h
    | cons e es ih =>
      intro s h
      refine ih (step s e) ?_
      cases e with
      | write k t x =>
        show Numbered (write k t x s)
        unfold write
        dsimp only
        have h1 : Numbered (if toScreen (targetOf s k) then addMessage k t (x.take 1023) s else s) := by
          split
          · exact numbered_add h _ _ _
          · exact h
        split
        · exact numbered_file h1 _ _
        · exact h1
      | clear => exact ⟨Nat.zero_le _, rfl⟩
      | options c => exact h
      | init c =>
        refine ⟨Nat.le_refl _, ?_⟩
        show (initLoop c s.msgs 0).1.map (·.id) = List.range' ((initLoop c s.msgs 0).1.length + 1 - (initLoop c s.msgs 0).1.length) _
        rw [initLoop_ids, Nat.add_sub_cancel_left]
        rfl
  exact key es {} ⟨Nat.le_refl _, rfl⟩

/-- The state after the options are known. -/
def Ready (c : Cfg) (s : Log) : Prop := s.opts = some c ∧ s.ready = true ∧ s.named = c.writeLog

theorem write_ready {c : Cfg} {s : Log} (h : Ready c s) (k : Kind) (t : Int) (x : Bytes) :
    Ready c (write k t x s) ∧
    (write k t x s).msgs = (if toScreen (c.target k) then trim c.buffer (s.msgs ++ [⟨s.gen + 1, k, t, x.take 1023⟩]) else s.msgs) ∧
    (write k t x s).gen = (if toScreen (c.target k) then s.gen + 1 else s.gen) ∧
    (write k t x s).file = (if toFile (c.target k) ∧ c.writeLog then s.file ++ [(k, line k (x.take 1023))] else s.file) := by
  obtain ⟨h1, h2, h3⟩ := h
  have ht : targetOf s k = c.target k := by unfold targetOf; rw [h1]
  unfold write
  dsimp only
  rw [ht]
  by_cases a : toScreen (c.target k) = true
  · rw [if_pos a, if_pos a, if_pos a]
    have hm : (addMessage k t (x.take 1023) s).msgs = trim c.buffer (s.msgs ++ [⟨s.gen + 1, k, t, x.take 1023⟩]) := by
      unfold addMessage
      rw [h1, h2]
    have hr : Ready c (addMessage k t (x.take 1023) s) := ⟨h1, h2, h3⟩
    by_cases b : toFile (c.target k) = true
    · rw [if_pos b]
      obtain ⟨f1, f2, f3, f4, f5⟩ := filelog_same k (x.take 1023) (addMessage k t (x.take 1023) s)
      refine ⟨⟨f3.trans hr.1, f4.trans hr.2.1, f5.trans hr.2.2⟩, f1.trans hm, f2, ?_⟩
      unfold filelog
      rw [hr.2.2]
      by_cases w : c.writeLog = true
      · rw [if_pos w, if_pos ⟨b, w⟩]; rfl
      · rw [if_neg w, if_neg (fun q => w q.2)]; rfl
    · rw [if_neg b, if_neg (fun q => b q.1)]
      exact ⟨hr, hm, rfl, rfl⟩
  · rw [if_neg a, if_neg a, if_neg a]
    by_cases b : toFile (c.target k) = true
    · rw [if_pos b]
      obtain ⟨f1, f2, f3, f4, f5⟩ := filelog_same k (x.take 1023) s
      refine ⟨⟨f3.trans h1, f4.trans h2, f5.trans h3⟩, f1, f2, ?_⟩
      unfold filelog
      rw [h3]
      by_cases w : c.writeLog = true
      · rw [if_pos w, if_pos ⟨b, w⟩]
      · rw [if_neg w, if_neg (fun q => w q.2)]
    · rw [if_neg b, if_neg (fun q => b q.1)]
      exact ⟨⟨h1, h2, h3⟩, rfl, rfl, rfl⟩

theorem run_ready {c : Cfg} : ∀ {es : List Event} {s : Log}, Usual es → Ready c s → Ready c (run s es)
  | [], s, _, h => h
  | e :: es, s, hu, h => by
    refine run_ready (es := es) (s := step s e) (fun x hx => hu x (List.mem_cons_of_mem _ hx)) ?_
    rcases hu e List.mem_cons_self with ⟨k, t, x, rfl⟩ | rfl
    · exact (write_ready h k t x).1
    · exact h

theorem drop_drop_last (n : Nat) (l : List α) (x : α) (r : List α) : ((l.drop (l.length - n)) ++ x :: r).drop ((l.drop (l.length - n) ++ x :: r).length - n) = (l ++ x :: r).drop ((l ++ x :: r).length - n) := by
  have : l ++ x :: r = l.take (l.length - n) ++ (l.drop (l.length - n) ++ x :: r) := by rw [← List.append_assoc, List.take_append_drop]
  conv => rhs; rw [this]
  rw [List.length_append (as := l.take (l.length - n))]
  conv => rhs; rw [List.drop_append]
  have hl : ((l.drop (l.length - n)) ++ x :: r).length = l.length - (l.length - n) + (r.length + 1) := by
    rw [List.length_append, List.length_drop, List.length_cons]
  rw [List.drop_of_length_le (l := l.take (l.length - n)) (by rw [List.length_take, hl]; omega), List.nil_append]
  congr 1
  rw [List.length_take, hl]
  omega

theorem msgs_after {c : Cfg} : ∀ {es : List Event} {s : Log}, Writes es → Ready c s →
    (run s es).msgs.map Msg.said = if shown c es = [] then s.msgs.map Msg.said else
      (s.msgs.map Msg.said ++ shown c es).drop ((s.msgs.map Msg.said ++ shown c es).length - c.buffer)
  | [], s, _, h => by rw [if_pos (show shown c [] = [] from rfl)]; rfl
  | e :: es, s, hw, h => by
    obtain ⟨k, t, x, rfl⟩ := hw e List.mem_cons_self
    have hw' : Writes es := fun x hx => hw x (List.mem_cons_of_mem _ hx)
    obtain ⟨w1, w2, _, _⟩ := write_ready h k t x
    have ih := msgs_after (es := es) (s := write k t x s) hw' w1
    show (run (write k t x s) es).msgs.map Msg.said = _
    rw [ih, w2]
    by_cases a : toScreen (c.target k) = true
    · have hs : shown c (.write k t x :: es) = (k, t, x.take 1023) :: shown c es := by
        show (if c.target k = .screen ∨ c.target k = .both then _ else _) = _
        rw [if_pos ((toScreen_iff _).1 a)]
      rw [hs, if_neg (List.cons_ne_nil _ _), if_pos a, trim_map, List.map_append]
      show (if shown c es = [] then (s.msgs.map Msg.said ++ [(k, t, x.take 1023)]).drop _ else _) = _
      by_cases b : shown c es = []
      · rw [if_pos b, b]
        rfl
      · rw [if_neg b]
        obtain ⟨y, ys, hy⟩ := List.exists_cons_of_ne_nil b
        rw [hy]
        show (List.drop _ (s.msgs.map Msg.said ++ [(k, t, x.take 1023)]) ++ y :: ys).drop _ = _
        rw [show [({ id := s.gen + 1, kind := k, time := t, text := List.take 1023 x } : Msg)].map Msg.said = [(k, t, x.take 1023)] from rfl, drop_drop_last]
        rw [List.append_assoc]
        rfl
    · have hs : shown c (.write k t x :: es) = shown c es := by
        show (if c.target k = .screen ∨ c.target k = .both then _ else _) = _
        rw [if_neg (fun q => a ((toScreen_iff _).2 q))]
      rw [hs, if_neg a]

/-- C113: after the last clearing the log has the last messages whose kind goes to the screen, as many as the buffer takes. -/
theorem latest_messages {c : Cfg} {s : Log} (h : Ready c s) (before es : List Event) (hb : Usual before) (hw : Writes es) :
    LastN c.buffer (shown c es) ((run s (before ++ .clear :: es)).msgs.map Msg.said) := by
  have h1 : run s (before ++ .clear :: es) = run { run s before with msgs := [] } es := by
    unfold run
    rw [List.foldl_append]
    rfl
  have hr := run_ready hb h
  rw [h1, msgs_after (s := { run s before with msgs := [] }) hw hr]
  by_cases b : shown c es = []
  · rw [if_pos b, b]
    exact ⟨[], rfl, by simp⟩
  · rw [if_neg b]
    exact lastN_drop _ _

/-- C113: without clearing the messages follow those which were there. -/
theorem latest_messages_uncleared {c : Cfg} {s : Log} (h : Ready c s) (es : List Event) (hw : Writes es) (hs : s.msgs.length ≤ c.buffer) :
    LastN c.buffer (s.msgs.map Msg.said ++ shown c es) ((run s es).msgs.map Msg.said) := by
  rw [msgs_after hw h]
  by_cases b : shown c es = []
  · rw [if_pos b, b, List.append_nil]
    exact ⟨[], rfl, by rw [List.length_map]; omega⟩
  · rw [if_neg b]
    exact lastN_drop _ _

/-- C113: the log file gets exactly the messages whose kind goes to it, in order, if there is one. -/
theorem file_lines {c : Cfg} : ∀ {es : List Event} {s : Log}, Usual es → Ready c s → (run s es).file = s.file ++ if c.writeLog = true then filed c es else []
  | [], s, _, h => by
    show s.file = _
    simp [filed]
  | e :: es, s, hu, h => by
    have hu' : Usual es := fun x hx => hu x (List.mem_cons_of_mem _ hx)
    rcases hu e List.mem_cons_self with ⟨k, t, x, rfl⟩ | rfl
    · obtain ⟨w1, _, _, w4⟩ := write_ready h k t x
      show (run (write k t x s) es).file = _
      rw [file_lines hu' w1, w4]
      have hf : filed c (.write k t x :: es) = if c.target k = .log ∨ c.target k = .both then (k, line k (x.take 1023)) :: filed c es else filed c es := rfl
      rw [hf]
      by_cases w : c.writeLog = true
      · rw [if_pos w, if_pos w]
        by_cases a : toFile (c.target k) = true
        · rw [if_pos ⟨a, w⟩, if_pos ((toFile_iff _).1 a), List.append_assoc]
          rfl
        · rw [if_neg (fun q => a q.1), if_neg (fun q => a ((toFile_iff _).2 q))]
      · rw [if_neg w, if_neg w, if_neg (fun q => w q.2)]
    · exact file_lines (s := { s with msgs := [] }) hu' h

theorem initLoop_said (c : Cfg) : ∀ (ms : List Msg) (gen : Nat), (initLoop c ms gen).1.map Msg.said = (ms.filter (fun m => toScreen (c.target m.kind))).map Msg.said ∧
    (initLoop c ms gen).2 = (ms.filter (fun m => toFile (c.target m.kind))).map (fun m => (m.kind, line m.kind m.text))
  | [], gen => ⟨rfl, rfl⟩
  | m :: ms, gen => by
    unfold initLoop
    dsimp only
    by_cases a : toScreen (c.target m.kind) = true
    · rw [if_pos a, List.filter_cons, if_pos a]
      obtain ⟨i1, i2⟩ := initLoop_said c ms (gen + 1)
      refine ⟨by rw [List.map_cons, i1]; rfl, ?_⟩
      dsimp only
      rw [i2]
      by_cases b : toFile (c.target m.kind) = true
      · rw [if_pos b, List.filter_cons, if_pos b]; rfl
      · rw [if_neg b, List.filter_cons, if_neg b]
    · rw [if_neg a, List.filter_cons, if_neg a]
      obtain ⟨i1, i2⟩ := initLoop_said c ms gen
      refine ⟨i1, ?_⟩
      dsimp only
      rw [i2]
      by_cases b : toFile (c.target m.kind) = true
      · rw [if_pos b, List.filter_cons, if_pos b]; rfl
      · rw [if_neg b, List.filter_cons, if_neg b]

/-- C113: messages written before the options are known go where the options say, in order. -/
theorem early_messages_partial (c : Cfg) (es : List Event) (hw : Writes es) :
    Ready c (run {} (es ++ [.init c])) ∧
    (run {} (es ++ [.init c])).msgs.map Msg.said = shown c es ∧
    (run {} (es ++ [.init c])).file = if c.writeLog = true then filed c es else [] := by
  have key : ∀ (es : List Event) (s : Log), Writes es → s.opts = none → s.named = false → s.ready = false →
      ((run s es).msgs.filter (fun m => toScreen (c.target m.kind))).map Msg.said = (s.msgs.filter (fun m => toScreen (c.target m.kind))).map Msg.said ++ shown c es ∧
      ((run s es).msgs.filter (fun m => toFile (c.target m.kind))).map (fun m => (m.kind, line m.kind m.text)) =
        (s.msgs.filter (fun m => toFile (c.target m.kind))).map (fun m => (m.kind, line m.kind m.text)) ++ filed c es ∧ (run s es).file = s.file := by
    intro es
    induction es with
    | nil => intro s _ _ _ _; simp [run, shown, filed]
    | cons e es ih =>
      intro s hw h1 h2 h3
      obtain ⟨k, t, x, rfl⟩ := hw e List.mem_cons_self
      have hs : write k t x s = addMessage k t (x.take 1023) s := by
        unfold write
        dsimp only
        have hts : toScreen (targetOf s k) = true := by
          unfold targetOf
          rw [h1]
          dsimp only
          split <;> rfl
        rw [if_pos hts]
        split
        · unfold filelog
          rw [if_neg (by show ¬ s.named = true; rw [h2]; exact Bool.false_ne_true)]
        · rfl
      have hm : (addMessage k t (x.take 1023) s).msgs = s.msgs ++ [⟨s.gen + 1, k, t, x.take 1023⟩] := by
        unfold addMessage
        rw [h3]
      show ((run (write k t x s) es).msgs.filter _).map Msg.said = _ ∧ ((run (write k t x s) es).msgs.filter _).map _ = _ ∧ (run (write k t x s) es).file = _
      rw [hs]
      obtain ⟨i1, i2, i3⟩ := ih (addMessage k t (x.take 1023) s) (fun x hx => hw x (List.mem_cons_of_mem _ hx)) h1 h2 h3
      refine ⟨?_, ?_, i3⟩
      · rw [i1, hm, List.filter_append, List.map_append, List.append_assoc]
        congr 1
        by_cases a : toScreen (c.target k) = true
        · rw [List.filter_cons, if_pos a]
          show _ = if c.target k = .screen ∨ c.target k = .both then _ else _
          rw [if_pos ((toScreen_iff _).1 a)]
          rfl
        · rw [List.filter_cons, if_neg a]
          show _ = if c.target k = .screen ∨ c.target k = .both then _ else _
          rw [if_neg (fun q => a ((toScreen_iff _).2 q))]
          rfl
      · rw [i2, hm, List.filter_append, List.map_append, List.append_assoc]
        congr 1
        by_cases a : toFile (c.target k) = true
        · rw [List.filter_cons, if_pos a]
          show _ = if c.target k = .log ∨ c.target k = .both then _ else _
          rw [if_pos ((toFile_iff _).1 a)]
          rfl
        · rw [List.filter_cons, if_neg a]
          show _ = if c.target k = .log ∨ c.target k = .both then _ else _
          rw [if_neg (fun q => a ((toFile_iff _).2 q))]
          rfl
  obtain ⟨k1, k2, k3⟩ := key es {} hw rfl rfl rfl
  have hrun : run {} (es ++ [.init c]) = init c (run {} es) := by
    unfold run
    rw [List.foldl_append]
    rfl
  rw [hrun]
  refine ⟨⟨rfl, rfl, rfl⟩, ?_, ?_⟩
  · show (initLoop c (run {} es).msgs 0).1.map Msg.said = _
    rw [(initLoop_said c _ 0).1, k1]
    rfl
  · show (if c.writeLog = true then (run {} es).file ++ (initLoop c (run {} es).msgs 0).2 else (run {} es).file) = _
    rw [(initLoop_said c _ 0).2, k2, k3]
    rfl

/-! ### Queries -/

theorem numbered_get {s : Log} (h : Numbered s) (i : Nat) (m : Msg) (hi : s.msgs[i]? = some m) : m.id = s.gen + 1 - s.msgs.length + i := by
  have h2 : (s.msgs.map (·.id))[i]? = (List.range' (s.gen + 1 - s.msgs.length) s.msgs.length)[i]? := congrArg (fun l => l[i]?) h.2
  have hlt : i < s.msgs.length := (List.getElem?_eq_some_iff.1 hi).1
  rw [List.getElem?_map, hi, List.getElem?_range' hlt] at h2
  have := Option.some.inj h2
  simp only at this
  omega

/-- C113: a query gets the messages from the given id on, or the given number of last messages; both together are refused. -/
theorem query_result {s : Log} (h : Numbered s) (idFrom nr : Int) :
    (0 < idFrom → 0 < nr → query idFrom nr s.msgs = none) ∧
    (0 < idFrom → nr ≤ 0 → query idFrom nr s.msgs = some (s.msgs.filter (fun m => decide (idFrom ≤ m.id)))) ∧
    (idFrom ≤ 0 → 0 < nr → ∃ r, query idFrom nr s.msgs = some r ∧ LastN nr.toNat s.msgs r) ∧
    (idFrom ≤ 0 → nr ≤ 0 → query idFrom nr s.msgs = some []) := by
  refine ⟨fun h1 h2 => ?_, fun h1 h2 => ?_, fun h1 h2 => ?_, fun h1 h2 => ?_⟩
  · unfold query; rw [if_pos ⟨h2, h1⟩]
  · unfold query
    rw [if_neg (fun q => by omega)]
    dsimp only
    cases hm : s.msgs with
    | nil => simp
    | cons m ms =>
      unfold startFrom
      dsimp only
      rw [if_pos h1]
      congr 1
      have hid := numbered_get h 0 m (by rw [hm]; rfl)
      have hall := fun i x (hx : s.msgs[i]? = some x) => numbered_get h i x hx
      rw [← hm]
      rw [hid]
      generalize s.gen + 1 - s.msgs.length = a at *
      have key : ∀ (l : List Msg) (a : Nat), (∀ i x, l[i]? = some x → x.id = a + i) → ∀ k : Nat, (∀ x : Msg, (idFrom ≤ (x.id : Int)) ↔ (a + k ≤ x.id ∨ x.id < a ∧ idFrom ≤ (x.id : Int))) →
          l.drop k = l.filter (fun m => decide (idFrom ≤ m.id)) := by
        intro l
        induction l with
        | nil => intro a _ k _; simp
        | cons y l ih =>
          intro a ha k hk
          have hy := ha 0 y rfl
          cases k with
          | zero =>
            rw [List.drop_zero]
            refine (List.filter_eq_self.2 fun x hx => ?_).symm
            obtain ⟨i, hi⟩ := List.getElem?_of_mem hx
            have := ha i x hi
            exact decide_eq_true ((hk x).2 (Or.inl (by omega)))
          | succ k =>
            rw [List.drop_succ_cons, List.filter_cons, if_neg]
            · refine ih (a + 1) (fun i x hx => ?_) k (fun x => ?_)
              · have := ha (i + 1) x (by rw [List.getElem?_cons_succ]; exact hx)
                omega
              · have := hk x
                constructor
                · intro q
                  rcases this.1 q with q' | ⟨q1, q2⟩
                  · exact Or.inl (by omega)
                  · exact Or.inr ⟨by omega, q2⟩
                · rintro (q | ⟨q1, q2⟩)
                  · exact this.2 (Or.inl (by omega))
                  · exact q2
            · rw [decide_eq_true_iff, hk y]
              omega
      refine key _ a hall _ fun x => ?_
      split
      · constructor
        · intro q
          by_cases c : x.id < a
          · exact Or.inr ⟨c, q⟩
          · exact Or.inl (by simp; omega)
        · rintro (q | q)
          · simp at q; omega
          · exact q.2
      · constructor
        · intro q
          exact Or.inl (by omega)
        · rintro (q | q)
          · omega
          · exact q.2
  · unfold query
    rw [if_neg (fun q => by omega)]
    dsimp only
    rw [if_pos h2]
    refine ⟨_, rfl, ?_⟩
    have hst : ∀ a : Int, startFrom idFrom a s.msgs = a := by
      intro a
      unfold startFrom
      split
      · rfl
      · rw [if_neg (by omega)]
    rw [hst]
    have hn : ((s.msgs.length : Int) - (if nr > s.msgs.length then (s.msgs.length : Int) else nr)).toNat = s.msgs.length - nr.toNat := by
      split <;> omega
    rw [hn]
    exact lastN_drop _ _
  · unfold query
    rw [if_neg (fun q => by omega)]
    dsimp only
    rw [if_neg (by omega)]
    have hst : ∀ a : Int, startFrom idFrom a s.msgs = a := by
      intro a
      unfold startFrom
      split
      · rfl
      · rw [if_neg (by omega)]
    rw [hst]
    simp

theorem gen_after {c : Cfg} : ∀ {es : List Event} {s : Log}, Writes es → Ready c s → (run s es).gen = s.gen + (shown c es).length
  | [], s, _, _ => rfl
  | e :: es, s, hw, h => by
    obtain ⟨k, t, x, rfl⟩ := hw e List.mem_cons_self
    obtain ⟨w1, _, w3, _⟩ := write_ready h k t x
    show (run (write k t x s) es).gen = _
    rw [gen_after (fun x hx => hw x (List.mem_cons_of_mem _ hx)) w1, w3]
    show _ = s.gen + (if c.target k = .screen ∨ c.target k = .both then (k, t, x.take 1023) :: shown c es else shown c es).length
    by_cases a : toScreen (c.target k) = true
    · rw [if_pos a, if_pos ((toScreen_iff _).1 a), List.length_cons]
      omega
    · rw [if_neg a, if_neg (fun q => a ((toScreen_iff _).2 q))]

theorem numbered_run {c : Cfg} : ∀ {es : List Event} {s : Log}, Writes es → Ready c s → Numbered s → Numbered (run s es)
  | [], s, _, _, hn => hn
  | e :: es, s, hw, h, hn => by
    obtain ⟨k, t, x, rfl⟩ := hw e List.mem_cons_self
    refine numbered_run (s := write k t x s) (fun x hx => hw x (List.mem_cons_of_mem _ hx)) (write_ready h k t x).1 ?_
    unfold write
    dsimp only
    have h1 : Numbered (if toScreen (targetOf s k) then addMessage k t (x.take 1023) s else s) := by
      split
      · exact numbered_add hn _ _ _
      · exact hn
    split
    · exact numbered_file h1 _ _
    · exact h1

/-- C113: who asks for everything after the last id known gets every message since then exactly once, if they fit into the buffer. -/
theorem nothing_missed {c : Cfg} {s : Log} (h : Ready c s) (hn : Numbered s) (es : List Event) (hw : Writes es) (hb : (shown c es).length ≤ c.buffer) :
    (query (s.gen + 1) 0 (run s es).msgs).map (·.map Msg.said) = some (shown c es) := by
  have hn' := numbered_run hw h hn
  have hg := gen_after hw h
  rw [(query_result hn' (s.gen + 1) 0).2.1 (by omega) (by omega), Option.map_some]
  congr 1
  have hm := msgs_after hw h
  have hlen : (shown c es).length ≤ (run s es).msgs.length := by
    have := congrArg List.length hm
    rw [List.length_map] at this
    rw [this]
    split
    · next e => rw [e]; exact Nat.zero_le _
    · rw [List.length_drop, List.length_append]; omega
  -- the messages with greater ids are the last ones
  have hf : (run s es).msgs.filter (fun m => decide ((s.gen : Int) + 1 ≤ m.id)) = (run s es).msgs.drop ((run s es).msgs.length - (shown c es).length) := by
    rw [← List.take_append_drop ((run s es).msgs.length - (shown c es).length) (run s es).msgs]
    rw [List.filter_append, List.take_append_drop]
    have h1 : ((run s es).msgs.take ((run s es).msgs.length - (shown c es).length)).filter (fun m => decide ((s.gen : Int) + 1 ≤ m.id)) = [] := by
      rw [List.filter_eq_nil_iff]
      intro x hx
      obtain ⟨i, hi⟩ := List.getElem?_of_mem hx
      rw [List.getElem?_take] at hi
      split at hi
      · have := numbered_get hn' i x hi
        rw [decide_eq_true_iff]
        have := hn'.1
        omega
      · exact nomatch hi
    have h2 : ((run s es).msgs.drop ((run s es).msgs.length - (shown c es).length)).filter (fun m => decide ((s.gen : Int) + 1 ≤ m.id)) =
        (run s es).msgs.drop ((run s es).msgs.length - (shown c es).length) := by
      rw [List.filter_eq_self]
      intro x hx
      obtain ⟨i, hi⟩ := List.getElem?_of_mem hx
      rw [List.getElem?_drop] at hi
      have := numbered_get hn' _ x hi
      have := hn'.1
      exact decide_eq_true (by omega)
    rw [h1, h2, List.nil_append]
  rw [hf, List.map_drop, hm]
  by_cases b : shown c es = []
  · rw [if_pos b, b, List.length_nil, Nat.sub_zero]
    have : (run s es).msgs.length = (s.msgs.map Msg.said).length := by
      have := congrArg List.length hm
      rw [List.length_map, if_pos b] at this
      exact this
    rw [this, List.drop_length]
  · rw [if_neg b]
    have hl : (run s es).msgs.length = ((s.msgs.map Msg.said ++ shown c es).drop ((s.msgs.map Msg.said ++ shown c es).length - c.buffer)).length := by
      have := congrArg List.length hm
      rw [List.length_map, if_neg b] at this
      exact this
    rw [List.drop_drop, hl, List.length_drop]
    have : (s.msgs.map Msg.said ++ shown c es).length - c.buffer + ((s.msgs.map Msg.said ++ shown c es).length - ((s.msgs.map Msg.said ++ shown c es).length - c.buffer) - (shown c es).length) =
        (s.msgs.map Msg.said).length := by
      rw [List.length_append]
      omega
    rw [this, List.drop_left]

/-! ### The binary protocol -/

/-- C113: the reply of the binary protocol has the announced number of messages and the buffer is filled exactly. -/
theorem binary_reply (lines : Int) (idFrom : Nat) (msgs : List Msg) (hl : 0 ≤ lines) :
    (binQuery lines idFrom msgs).1 = (binQuery lines idFrom msgs).2.length ∧
    written (binQuery lines idFrom msgs).2 = bufSize (binQuery lines idFrom msgs).1 (binQuery lines idFrom msgs).2 := by
  have hcount : (binQuery lines idFrom msgs).1 = (binQuery lines idFrom msgs).2.length := by
    unfold binQuery
    dsimp only
    split
    · simp
      split <;> omega
    · next m ms =>
      split
      · dsimp only
        generalize ((idFrom : Int) - m.id).bmod (2 ^ 32) = st
        rw [List.length_drop]
        split <;> split <;> omega
      · dsimp only
        rw [List.length_drop]
        split <;> (try split) <;> omega
  refine ⟨hcount, ?_⟩
  rw [hcount]
  generalize (binQuery lines idFrom msgs).2 = l
  have al : ∀ n k : Int, align (n + 16 * k) = align n + 16 * k := by
    intro n k
    unfold align
    have : (n + 16 * k) % 4 = n % 4 := by omega
    rw [this]
    omega
  have key : ∀ (l : List Msg) (n : Int), l.foldl (fun n m => align (n + 16 + (m.text.length + 1))) n = l.foldl (fun n m => align (n + m.text.length + 1)) (n + l.length * 16) := by
    intro l
    induction l with
    | nil => intro n; simp
    | cons m l ih =>
      intro n
      rw [List.foldl_cons, List.foldl_cons, ih]
      congr 1
      rw [List.length_cons, ← (by rw [Int.mul_comm] : (16 : Int) * l.length = l.length * 16), ← al]
      congr 1
      push_cast
      omega
  unfold written bufSize
  rw [key, Int.zero_add]

/-- C113: the binary protocol sends the messages from the given id on, or else the given number of last messages. -/
theorem binary_messages {s : Log} (h : Numbered s) (hg : s.gen < 2 ^ 31) (lines : Int) (idFrom : Nat) (hi : idFrom < 2 ^ 31) :
    (0 < idFrom → (binQuery lines idFrom s.msgs).2 = s.msgs.filter (fun m => decide (idFrom ≤ m.id))) ∧
    (idFrom = 0 → 0 < lines → LastN lines.toNat s.msgs (binQuery lines idFrom s.msgs).2) := by
  constructor
  · intro h0
    have hq := (query_result h idFrom 0).2.1 (by omega) (by omega)
    have hd : (fun m : Msg => decide ((idFrom : Int) ≤ m.id)) = fun m => decide (idFrom ≤ m.id) := by
      funext m
      simp
    rw [hd] at hq
    unfold query at hq
    rw [if_neg (fun q => by omega)] at hq
    rw [← Option.some.inj hq]
    unfold binQuery startFrom
    cases hm : s.msgs with
    | nil => simp
    | cons m ms =>
      dsimp only
      have hid := numbered_get h 0 m (by rw [hm]; rfl)
      have hb : ((idFrom : Int) - m.id).bmod (2 ^ 32) = (idFrom : Int) - m.id := by
        refine Int.bmod_eq_of_le ?_ ?_ <;> omega
      rw [if_pos h0, hb, if_pos (show (idFrom : Int) > 0 by omega)]
  · intro h0 hl
    obtain ⟨r, hq, hr⟩ := (query_result h 0 lines).2.2.1 (by omega) hl
    have hr' : (binQuery lines idFrom s.msgs).2 = r := by
      unfold query at hq
      rw [if_neg (fun q => by omega)] at hq
      rw [← Option.some.inj hq]
      unfold binQuery startFrom
      cases hm : s.msgs with
      | nil => simp
      | cons m ms =>
        dsimp only
        rw [if_neg (show ¬ idFrom > 0 by omega), if_neg (show ¬ (0 : Int) > 0 by omega), if_pos hl, if_pos hl]
    rw [hr']
    exact hr

/-! ### Where it does not hold -/

/-- C113 (refutes): a message for the log file which is written while the options are being read, after its target is known, is nowhere. -/
theorem lost_while_reading (c : Cfg) (k : Kind) (hk : c.target k = .log) (t : Int) (x : Bytes) :
    (run {} [.options c, .write k t x, .init c]).msgs = [] ∧ (run {} [.options c, .write k t x, .init c]).file = [] := by
  have h1 : step (step {} (.options c)) (.write k t x) = { opts := some c } := by
    show write k t x { opts := some c } = _
    have ht : targetOf { opts := some c } k = .log := hk
    unfold write
    rw [ht]
    rfl
  show (step (step (step {} (.options c)) (.write k t x)) (.init c)).msgs = [] ∧ (step (step (step {} (.options c)) (.write k t x)) (.init c)).file = []
  rw [h1]
  refine ⟨rfl, ?_⟩
  show (if c.writeLog = true then ([] : List (Kind × Bytes)) ++ [] else []) = []
  split <;> rfl

/-- C113 (refutes): in the binary protocol a negative number of lines makes the size of the buffer negative. -/
theorem binary_negative (lines : Int) (hl : lines < 0) (msgs : List Msg) :
    (binQuery lines 0 msgs).1 = lines ∧ bufSize (binQuery lines 0 msgs).1 (binQuery lines 0 msgs).2 < 0 := by
  have h1 : binQuery lines 0 msgs = (lines, []) := by
    unfold binQuery
    dsimp only
    rw [if_neg (by omega), if_neg (by omega)]
    split
    · rfl
    · rw [if_neg (by omega)]
      simp
  rw [h1]
  refine ⟨rfl, ?_⟩
  show lines * 16 < 0
  omega

/-! ### Examples -/

def exC : Cfg := { buffer := 2, target := fun k => if k = .info then .both else if k = .detail then .log else .screen, writeLog := true }
def exE : List Event := [.write .info 5 (lit "a"), .write .detail 6 (lit "b"), .write .error 7 (lit "c"), .write .warning 8 (lit "d")]

example : (run {} (exE ++ [.init exC])).msgs.map (fun m => (m.id, m.text)) = [(1, lit "a"), (2, lit "c"), (3, lit "d")] := by decide +kernel
example : (run {} (exE ++ [.init exC])).file = [(.info, lit "INFO\ta"), (.detail, lit "DETAIL\tb")] := by decide +kernel
example : (run {} ([.init exC] ++ exE)).msgs.map (fun m => (m.id, m.text)) = [(2, lit "c"), (3, lit "d")] := by decide +kernel
example : (query 3 0 (run {} ([.init exC] ++ exE)).msgs).map (·.map (·.text)) = some [lit "d"] := by decide +kernel
example : Ready exC (run {} [.init exC]) := ⟨rfl, rfl, rfl⟩
example : Writes exE := by
  intro e he
  simp only [exE, List.mem_cons, List.not_mem_nil, or_false] at he
  rcases he with rfl | rfl | rfl | rfl <;> exact ⟨_, _, _, rfl⟩

end Verif.MsgLog
