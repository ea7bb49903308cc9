import Verif.ParThreads
/-
Computing the missing blocks by several threads (C137). A small specification: `good`: what the input block `k` has to add to an output block: its
own factors, for the whole piece, with the block `k` in the buffer from begin to end; `upTo c`: this for the first `c` input blocks, each once and in
order. What the program without threads computes is `upTo inputs` for each missing block.
-/
namespace Verif.ParThreads

def good (p : Par) (k : Nat) : Add := ⟨k, p.len, some k, some k⟩
def upTo (p : Par) (c : Nat) : List Add := (List.range c).map (good p)

/-- The begin of a piece: all threads wait, the output is cleared; what else is in the threads and the input buffer does not matter. -/
def Begin (p : Par) (s : St) : Prop :=
  s.pc = .load 0 ∧ (∀ i, i < p.threads → (s.ths i).working = false ∧ (s.ths i).ph = .idle) ∧ ∀ j, s.outs j = []

/-- The thread is reading or writing memory of the repairer, or will do so. -/
def Active (t : Th) : Prop := t.working = true ∨ t.ph ≠ .idle

theorem upTo_succ (p : Par) (c : Nat) : upTo p (c + 1) = upTo p c ++ [good p c] := by
  simp [upTo, List.range_succ]

/-- What the output block `j` has when `k` input blocks are finished, and of the next the first `a` outputs. -/
def want (p : Par) (k a j : Nat) : List Add := if j < p.missing then upTo p (if j < a then k + 1 else k) else []

def Calm (p : Par) (s : St) : Prop := ∀ i, i < p.threads → (s.ths i).working = false ∧ (s.ths i).ph = .idle

structure Run (p : Par) (s : St) (k a : Nat) : Prop where
  buf : s.buf = some k
  k_lt : k < p.inputs
  a_le : a ≤ p.missing
  off : ∀ i, i < p.threads → (s.ths i).working = false → (s.ths i).ph = .idle
  on : ∀ i, i < p.threads → (s.ths i).working = true → (s.ths i).inp = k ∧ (s.ths i).len = p.len ∧ (s.ths i).out < a
  busy : ∀ i, i < p.threads → ∀ o x f old, (s.ths i).ph = .busy o x f old →
    o = (s.ths i).out ∧ x = (k, p.len) ∧ f = some k ∧ old = upTo p k
  apart : ∀ i j, i < p.threads → j < p.threads → (s.ths i).working = true → (s.ths j).working = true →
    (s.ths i).out = (s.ths j).out → i = j
  now : ∀ i, i < p.threads → (s.ths i).working = true →
    s.outs (s.ths i).out = upTo p (if (s.ths i).ph = .stored then k + 1 else k)
  rest : ∀ j, (∀ i, i < p.threads → (s.ths i).working = true → (s.ths i).out ≠ j) → s.outs j = want p k a j

def Inv (p : Par) (s : St) : Prop :=
  match s.pc with
  | .load k => Calm p s ∧ k ≤ p.inputs ∧ ∀ j, s.outs j = want p k 0 j
  | .loading k => Calm p s ∧ k < p.inputs ∧ ∀ j, s.outs j = want p k 0 j
  | .top k o => Run p s k o
  | .look k o _ => Run p s k o ∧ o < p.missing
  | .give k o i part => Run p s k o ∧ o < p.missing ∧ i < p.threads ∧ (s.ths i).working = false ∧ part ≤ 3 ∧
      (1 ≤ part → (s.ths i).inp = k) ∧ (2 ≤ part → (s.ths i).out = o) ∧ (3 ≤ part → (s.ths i).len = p.len)
  | .chk k o => Run p s k o
  | .wait k o i => Run p s k o ∧ (s.cancelled = false → o = p.missing) ∧
      ∀ j, j < i → j < p.threads → (s.ths j).working = false
  | .after k => Calm p s ∧ ∃ a, Run p s k a ∧ (s.cancelled = false → a = p.missing)
  | .ended ok => Calm p s ∧ (ok = true → ∀ j, s.outs j = want p p.inputs 0 j) ∧
      (ok = false → s.cancelled = true) ∧ ∀ j, ∃ c, c ≤ p.inputs ∧ s.outs j = if j < p.missing then upTo p c else []

theorem Run.congr {p s s' k a} (h : Run p s k a) (h1 : s'.ths = s.ths) (h2 : s'.buf = s.buf) (h3 : s'.outs = s.outs) : Run p s' k a := by
  obtain ⟨a1, a2, a3, a4, a5, a6, a7, a8, a9⟩ := h
  refine ⟨h2.trans a1, a2, a3, ?_, ?_, ?_, ?_, ?_, ?_⟩ <;> rw [h1]
  · exact a4
  · exact a5
  · exact a6
  · exact a7
  · rw [h3]; exact a8
  · rw [h3]; exact a9

theorem calm_worker {p s} (h : Calm p s) {i : Nat} (hi : i < p.threads) : worker s i = s := by
  obtain ⟨h1, h2⟩ := h i hi
  unfold worker
  simp only [h2, h1, setTh]
  obtain ⟨ths, buf, outs, c, pc⟩ := s
  simp only [St.mk.injEq, and_true]
  funext j
  by_cases hj : j = i
  · subst hj
    dsimp only at h1 h2
    rw [if_pos rfl]
    generalize ths j = t at *
    obtain ⟨_, _, _, _, _⟩ := t
    simp_all
  · simp [hj]

theorem worker_pc (s : St) (i : Nat) : (worker s i).pc = s.pc ∧ (worker s i).cancelled = s.cancelled ∧ (worker s i).buf = s.buf := by
  unfold worker
  dsimp only
  split <;> simp [setTh]

theorem worker_other (s : St) (i j : Nat) (h : j ≠ i) : (worker s i).ths j = s.ths j := by
  unfold worker
  dsimp only
  split <;> simp [setTh, h]

/-- A thread which does not work stays as it is. -/
theorem worker_off {p s k a} (h : Run p s k a) {i j : Nat} (hj : j < p.threads) (hw : (s.ths j).working = false) :
    (worker s i).ths j = s.ths j := by
  by_cases hji : j = i
  · subst hji
    have := h.off j hj hw
    unfold worker
    simp only [this, hw, setTh]
    simp only [if_true]
    generalize s.ths j = t at *
    obtain ⟨_, _, _, _, _⟩ := t
    simp_all
  · exact worker_other s i j hji

theorem Run.worker {p s k a} (h : Run p s k a) {i : Nat} (hi : i < p.threads) : Run p (worker s i) k a := by
  cases hw : (s.ths i).working with
  | false =>
    have h1 : (ParThreads.worker s i).ths = s.ths := by
      funext j
      by_cases hj : j = i
      · subst hj; exact worker_off h hi hw
      · exact worker_other s i j hj
    have h3 : (ParThreads.worker s i).outs = s.outs := by
      unfold ParThreads.worker
      simp only [h.off i hi hw, setTh]
    exact h.congr h1 (worker_pc s i).2.2 h3
  | true =>
    obtain ⟨o1, o2, o3⟩ := h.on i hi hw
    have hnow := h.now i hi hw
    have hapart := fun j hj hjw ho => h.apart i j hi hj hw hjw ho
    obtain ⟨b1, b2, b3, b4, b5, b6, b7, b8, b9⟩ := h
    unfold ParThreads.worker
    cases hph : (s.ths i).ph with
    | idle =>
      simp only [hph, hw, if_true, setTh]
      constructor <;> grind
    | seen =>
      simp only [hph, setTh]
      constructor <;> grind
    | busy o x f old =>
      simp only [hph, setTh]
      obtain ⟨c1, c2, c3, c4⟩ := b6 i hi o x f old hph
      have hg : old ++ [⟨x.1, x.2, f, s.buf⟩] = upTo p (k + 1) := by
        rw [upTo_succ, c4, c2, c3, b1]; rfl
      rw [hg]
      subst c1
      constructor <;> grind
    | stored =>
      simp only [hph, setTh]
      have hd : s.outs (s.ths i).out = want p k a (s.ths i).out := by
        rw [hnow, hph]
        unfold want
        rw [if_pos rfl, if_pos (by omega), if_pos o3]
      constructor <;> grind

theorem Run.calm {p s k a} (h : Run p s k a) (hc : ∀ j, j < p.threads → (s.ths j).working = false) : Calm p s :=
  fun i hi => ⟨hc i hi, h.off i hi (hc i hi)⟩

theorem Run.calm_outs {p s k a} (h : Run p s k a) (hc : Calm p s) (j : Nat) : s.outs j = want p k a j :=
  h.rest j fun i hi hw => by rw [(hc i hi).1] at hw; exact absurd hw (by decide)

theorem want_full (p : Par) (k j : Nat) : want p k p.missing j = want p (k + 1) 0 j := by
  unfold want
  by_cases h : j < p.missing
  · simp [h]
  · simp [h]

theorem inv_main {p s} (h : Inv p s) : Inv p (main p s) := by
  unfold Inv at h
  unfold main
  split at h
  · rename_i k hk
    simp only [hk]
    obtain ⟨h1, h2, h3⟩ := h
    by_cases hlt : k < p.inputs
    · rw [if_pos hlt]
      exact ⟨h1, hlt, h3⟩
    · rw [if_neg hlt]
      have : k = p.inputs := by omega
      subst this
      refine ⟨h1, fun _ => h3, by simp, fun j => ⟨p.inputs, Nat.le_refl _, ?_⟩⟩
      dsimp only
      rw [h3 j]
      simp [want]
  · rename_i k hk
    simp only [hk]
    obtain ⟨h1, h2, h3⟩ := h
    refine ⟨rfl, h2, Nat.zero_le _, fun i hi _ => (h1 i hi).2, ?_, ?_, ?_, ?_, fun j _ => h3 j⟩
    all_goals grind [Calm]
  · rename_i k o hk
    simp only [hk]
    by_cases ho : o < p.missing
    · simp only [if_pos ho]
      exact ⟨h.congr rfl rfl rfl, ho⟩
    · simp only [if_neg ho]
      have := h.a_le
      exact ⟨h.congr rfl rfl rfl, fun _ => by omega, fun j hj => absurd hj (Nat.not_lt_zero _)⟩
  · rename_i k o i hk
    simp only [hk]
    by_cases hi : i < p.threads
    · rw [if_pos hi]
      cases hw : (s.ths i).working with
      | true => exact ⟨h.1.congr rfl rfl rfl, h.2⟩
      | false =>
        simp only [Bool.false_eq_true, if_false]
        exact ⟨h.1.congr rfl rfl rfl, h.2, hi, hw, by omega, by omega, by omega, by omega⟩
    · rw [if_neg hi]
      exact h.1.congr rfl rfl rfl
  · rename_i k o i part hk
    simp only [hk]
    obtain ⟨⟨b1, b2, b3, b4, b5, b6, b7, b8, b9⟩, h2, h3, h4, h5, h6, h7, h8⟩ := h
    have hid := b4 i h3 h4
    match part, h5 with
    | 0, _ =>
      simp only [setTh]
      refine ⟨?_, h2, h3, by simp [h4], by omega, by simp, by omega, by omega⟩
      constructor <;> grind
    | 1, _ =>
      simp only [setTh]
      refine ⟨?_, h2, h3, by simp [h4], by omega, by simp [h6], by simp, by omega⟩
      constructor <;> grind
    | 2, _ =>
      simp only [setTh]
      refine ⟨?_, h2, h3, by simp [h4], by omega, by simp [h6], by simp [h7], by simp⟩
      constructor <;> grind
    | 3, _ =>
      have e1 := h6 (by omega)
      have e2 := h7 (by omega)
      have e3 := h8 (by omega)
      have hfree : s.outs o = upTo p k := by
        rw [b9 o (fun j hj hw ho => by have := b5 j hj hw; omega)]
        unfold want
        rw [if_pos h2, if_neg (by omega)]
      have hwant : ∀ j, j ≠ o → want p k (o + 1) j = want p k o j := by
        intro j hj
        unfold want
        by_cases h1 : j < o
        · simp [h1, show j < o + 1 by omega]
        · simp [h1, show ¬ j < o + 1 by omega]
      simp only [setTh]
      show Run p _ k (o + 1)
      constructor <;> grind
  · rename_i k o hk
    simp only [hk]
    cases hc : s.cancelled with
    | true =>
      simp only [if_true]
      exact ⟨h.congr rfl rfl rfl, nofun, fun j hj => absurd hj (Nat.not_lt_zero _)⟩
    | false =>
      simp only [Bool.false_eq_true, if_false]
      exact h.congr rfl rfl rfl
  · rename_i k o i hk
    simp only [hk]
    by_cases hi : i < p.threads
    · rw [if_pos hi]
      cases hw : (s.ths i).working with
      | true => exact ⟨h.1.congr rfl rfl rfl, h.2.1, fun j hj => absurd hj (Nat.not_lt_zero _)⟩
      | false =>
        simp only [Bool.false_eq_true, if_false]
        refine ⟨h.1.congr rfl rfl rfl, h.2.1, fun j hj hjt => ?_⟩
        by_cases hji : j = i
        · subst hji; exact hw
        · exact h.2.2 j (by omega) hjt
    · rw [if_neg hi]
      exact ⟨h.1.calm fun j hj => h.2.2 j (by omega) hj, o, h.1.congr rfl rfl rfl, h.2.1⟩
  · rename_i k hk
    simp only [hk]
    obtain ⟨h1, a, h2, h3⟩ := h
    have hk := h2.k_lt
    cases hc : s.cancelled with
    | true =>
      simp only [if_true]
      refine ⟨h1, fun h => absurd h (by decide), fun _ => rfl, fun j => ⟨if j < a then k + 1 else k, ?_, ?_⟩⟩
      · split <;> omega
      · exact h2.calm_outs h1 j
    | false =>
      simp only [Bool.false_eq_true, if_false]
      refine ⟨h1, hk, fun j => ?_⟩
      have := h2.calm_outs h1 j
      rw [h3 hc, want_full] at this
      exact this
  · rename_i ok hk
    simp only [hk]
    unfold Inv
    simp only [hk]
    exact h

theorem inv_worker {p s} (h : Inv p s) {i : Nat} (hi : i < p.threads) : Inv p (worker s i) := by
  obtain ⟨hpc, hcc, -⟩ := worker_pc s i
  unfold Inv at h ⊢
  rw [hpc]
  split at h
  · rw [calm_worker h.1 hi]; exact h
  · rw [calm_worker h.1 hi]; exact h
  · exact h.worker hi
  · exact ⟨h.1.worker hi, h.2⟩
  · obtain ⟨h1, h2, h3, h4, h5⟩ := h
    refine ⟨h1.worker hi, h2, h3, ?_⟩
    rw [worker_off h1 h3 h4]
    exact ⟨h4, h5⟩
  · exact h.worker hi
  · refine ⟨h.1.worker hi, by rw [hcc]; exact h.2.1, fun j hj hjt => ?_⟩
    rw [worker_off h.1 hjt (h.2.2 j hj hjt)]
    exact h.2.2 j hj hjt
  · rw [calm_worker h.1 hi]; exact h
  · rw [calm_worker h.1 hi]; exact h

theorem inv_step {p s} (h : Inv p s) (e : Ev) : Inv p (step p s e) := by
  cases e with
  | main => exact inv_main h
  | worker i =>
    simp only [step]
    by_cases hi : i < p.threads
    · rw [if_pos hi]; exact inv_worker h hi
    · rw [if_neg hi]; exact h
  | cancel =>
    simp only [step]
    unfold Inv at h ⊢
    split at h <;> (rename_i hk; simp only [hk])
    · exact h
    · exact h
    · exact h.congr rfl rfl rfl
    · exact ⟨h.1.congr rfl rfl rfl, h.2⟩
    · exact ⟨h.1.congr rfl rfl rfl, h.2⟩
    · exact h.congr rfl rfl rfl
    · exact ⟨h.1.congr rfl rfl rfl, nofun, h.2.2⟩
    · obtain ⟨h1, a, h2, h3⟩ := h
      exact ⟨h1, a, h2.congr rfl rfl rfl, nofun⟩
    · exact ⟨h.1, h.2.1, fun _ => trivial, h.2.2.2⟩

theorem inv_exec {p} : ∀ (evs : List Ev) {s}, Inv p s → Inv p (exec p s evs)
  | [], _, h => h
  | e :: evs, _, h => inv_exec evs (inv_step h e)

theorem inv_begin {p s} (h : Begin p s) : Inv p s := by
  obtain ⟨h1, h2, h3⟩ := h
  unfold Inv
  simp only [h1]
  refine ⟨h2, Nat.zero_le _, fun j => ?_⟩
  rw [h3 j]
  simp [want, upTo]

theorem inv_reach {p s} (h : Begin p s) (evs : List Ev) : Inv p (exec p s evs) := inv_exec evs (inv_begin h)

/-- When the piece is finished without a cancel, each missing block got from each input block what it has to, exactly once, whatever the threads did
in which order; nothing else was written. -/
theorem complete {p s} (h : Begin p s) (evs : List Ev) (he : (exec p s evs).pc = .ended true) (j : Nat) :
    (exec p s evs).outs j = if j < p.missing then upTo p p.inputs else [] := by
  have hi := inv_reach h evs
  unfold Inv at hi
  simp only [he] at hi
  have := hi.2.1 trivial j
  simpa [want] using this

theorem alone_inner (p : Par) (k : Nat) : ∀ (m : Nat) (outs : Nat → List Add) (j : Nat),
    (List.range m).foldl (fun outs o j => if j = o then outs j ++ [⟨k, p.len, some k, some k⟩] else outs j) outs j =
      if j < m then outs j ++ [good p k] else outs j
  | 0, outs, j => by simp
  | m + 1, outs, j => by
    rw [List.range_succ, List.foldl_append]
    simp only [List.foldl_cons, List.foldl_nil]
    rw [alone_inner p k m outs j]
    by_cases h : j = m
    · subst h; simp [good]
    · rw [if_neg h]
      by_cases h' : j < m
      · rw [if_pos h', if_pos (by omega)]
      · rw [if_neg h', if_neg (by omega)]

theorem alone_eq (p : Par) (j : Nat) : alone p j = if j < p.missing then upTo p p.inputs else [] := by
  unfold alone
  generalize p.inputs = n
  induction n with
  | zero => simp [upTo]
  | succ n ih =>
    rw [List.range_succ, List.foldl_append]
    simp only [List.foldl_cons, List.foldl_nil]
    rw [alone_inner, ih]
    by_cases h : j < p.missing
    · simp [h, upTo_succ]
    · simp [h]

/-- The same data as without threads. -/
theorem same_as_alone {p s} (h : Begin p s) (evs : List Ev) (he : (exec p s evs).pc = .ended true) :
    (exec p s evs).outs = alone p := by
  funext j
  rw [complete h evs he j, alone_eq]

theorem Run.outs {p s k a} (h : Run p s k a) (j : Nat) : ∃ c, c ≤ p.inputs ∧ s.outs j = if j < p.missing then upTo p c else [] := by
  have hk := h.k_lt
  by_cases hex : ∃ i, i < p.threads ∧ (s.ths i).working = true ∧ (s.ths i).out = j
  · obtain ⟨i, hi, hw, ho⟩ := hex
    have h1 := h.now i hi hw
    have h2 := (h.on i hi hw).2.2
    have h3 := h.a_le
    rw [ho] at h1 h2
    refine ⟨if (s.ths i).ph = .stored then k + 1 else k, ?_, ?_⟩
    · split <;> omega
    · rw [if_pos (by omega)]; exact h1
  · have h1 := h.rest j fun i hi hw ho => hex ⟨i, hi, hw, ho⟩
    refine ⟨if j < a then k + 1 else k, ?_, h1⟩
    split <;> omega

/-- At every moment each missing block has exactly what some number of the first input blocks has to add: never anything twice, never for another
block or with another content of the buffer. Also when the repair is cancelled. -/
theorem always_right {p s} (h : Begin p s) (evs : List Ev) (j : Nat) :
    ∃ c, c ≤ p.inputs ∧ (exec p s evs).outs j = if j < p.missing then upTo p c else [] := by
  have hi := inv_reach h evs
  unfold Inv at hi
  split at hi
  · rename_i k hk
    exact ⟨k, hi.2.1, by rw [hi.2.2 j]; simp [want]⟩
  · rename_i k hk
    exact ⟨k, by omega, by rw [hi.2.2 j]; simp [want]⟩
  · exact hi.outs j
  · exact hi.1.outs j
  · exact hi.1.outs j
  · exact hi.outs j
  · exact hi.1.outs j
  · obtain ⟨_, a, hr, _⟩ := hi
    exact hr.outs j
  · exact hi.2.2.2 j

/-- Which states have threads at work: only those inside RepairData. -/
theorem inv_active {p s} (h : Inv p s) {i : Nat} (hi : i < p.threads) (ha : Active (s.ths i)) :
    ∃ k a, Run p s k a ∧ (s.ths i).working = true ∧
      ((∃ o, s.pc = .top k o) ∨ (∃ o n, s.pc = .look k o n) ∨ (∃ o n m, s.pc = .give k o n m) ∨ (∃ o, s.pc = .chk k o) ∨ ∃ o n, s.pc = .wait k o n) := by
  have calm : ∀ (P : Prop), Calm p s → P := by
    intro P hc
    obtain ⟨h1, h2⟩ := hc i hi
    rcases ha with ha | ha
    · rw [h1] at ha; exact absurd ha (by decide)
    · exact absurd h2 ha
  have work : ∀ {k a}, Run p s k a → (s.ths i).working = true := by
    intro k a hr
    cases hw : (s.ths i).working with
    | true => rfl
    | false =>
      rcases ha with ha | ha
      · rw [hw] at ha; exact absurd ha (by decide)
      · exact absurd (hr.off i hi hw) ha
  unfold Inv at h
  split at h <;> rename_i hk
  · exact calm _ h.1
  · exact calm _ h.1
  · exact ⟨_, _, h, work h, .inl ⟨_, hk⟩⟩
  · exact ⟨_, _, h.1, work h.1, .inr (.inl ⟨_, _, hk⟩)⟩
  · exact ⟨_, _, h.1, work h.1, .inr (.inr (.inl ⟨_, _, _, hk⟩))⟩
  · exact ⟨_, _, h, work h, .inr (.inr (.inr (.inl ⟨_, hk⟩)))⟩
  · exact ⟨_, _, h.1, work h.1, .inr (.inr (.inr (.inr ⟨_, _, hk⟩)))⟩
  · exact calm _ h.1
  · exact calm _ h.1

/-- Two threads never work for the same output block at the same time. -/
theorem never_same_output {p s} (h : Begin p s) (evs : List Ev) {i j : Nat} (hi : i < p.threads) (hj : j < p.threads) (hij : i ≠ j)
    (h1 : Active ((exec p s evs).ths i)) (h2 : Active ((exec p s evs).ths j)) :
    ((exec p s evs).ths i).out ≠ ((exec p s evs).ths j).out := by
  obtain ⟨k, a, hr, w1, _⟩ := inv_active (inv_reach h evs) hi h1
  obtain ⟨k', a', hr', w2, _⟩ := inv_active (inv_reach h evs) hj h2
  exact fun ho => hij (hr.apart i j hi hj w1 w2 ho)

/-- As long as a thread works, its input block stays in the buffer, and the output block is one of the missing ones. -/
theorem buffer_stays {p s} (h : Begin p s) (evs : List Ev) {i : Nat} (hi : i < p.threads) (h1 : Active ((exec p s evs).ths i)) :
    (exec p s evs).buf = some ((exec p s evs).ths i).inp ∧ ((exec p s evs).ths i).out < p.missing ∧ ((exec p s evs).ths i).len = p.len := by
  obtain ⟨k, a, hr, w1, _⟩ := inv_active (inv_reach h evs) hi h1
  obtain ⟨o1, o2, o3⟩ := hr.on i hi w1
  have := hr.a_le
  exact ⟨by rw [hr.buf, o1], by omega, o2⟩

/-- RepairData returns only when no thread works: not before the next input block is read, and not before the output is written, the repairer
is destroyed and its memory freed. Also when the repair is cancelled. -/
theorem returns_calm {p s} (h : Begin p s) (evs : List Ev) {i : Nat} (hi : i < p.threads)
    (hp : (∃ k, (exec p s evs).pc = .after k) ∨ (∃ k, (exec p s evs).pc = .load k) ∨ (∃ k, (exec p s evs).pc = .loading k) ∨
      ∃ ok, (exec p s evs).pc = .ended ok) : ¬ Active ((exec p s evs).ths i) := by
  intro ha
  obtain ⟨k, a, _, _, h1⟩ := inv_active (inv_reach h evs) hi ha
  grind

/-- So the next piece begins as this one did: the same holds for it, however many pieces there are. -/
theorem next_piece {p s} (h : Begin p s) (evs : List Ev) {ok : Bool} (he : (exec p s evs).pc = .ended ok) :
    Begin p { exec p s evs with pc := .load 0, outs := fun _ => [] } := by
  have hi := inv_reach h evs
  unfold Inv at hi
  simp only [he] at hi
  exact ⟨rfl, hi.1, fun _ => rfl⟩

theorem cancelled_step (p : Par) (s : St) (e : Ev) (he : e ≠ .cancel) : (step p s e).cancelled = s.cancelled := by
  cases e with
  | main =>
    simp only [step]
    unfold main
    split <;> (try split) <;> simp [setTh]
  | worker i =>
    simp only [step]
    split
    · exact (worker_pc s i).2.1
    · rfl
  | cancel => exact absurd rfl he

/-- It fails only if it was cancelled. -/
theorem fails_only_cancelled {p s} (h : Begin p s) (hs : s.cancelled = false) (evs : List Ev) (he : (exec p s evs).pc = .ended false) :
    .cancel ∈ evs := by
  have hi := inv_reach h evs
  unfold Inv at hi
  simp only [he] at hi
  have hc := hi.2.2.1 trivial
  clear hi he h
  induction evs generalizing s with
  | nil => simp [exec, hs] at hc
  | cons e es ih =>
    by_cases hec : e = .cancel
    · simp [hec]
    · have := ih (s := step p s e) (by rw [cancelled_step p s e hec]; exact hs) hc
      exact List.mem_cons_of_mem _ this

/-- A cancel which comes before the end is obeyed: it then never ends with success. -/
theorem cancel_obeyed (p : Par) (s : St) (hs : s.cancelled = true) (hp : s.pc ≠ .ended true) (evs : List Ev) : (exec p s evs).pc ≠ .ended true := by
  induction evs generalizing s with
  | nil => exact hp
  | cons e es ih =>
    have hc : (step p s e).cancelled = true := by
      by_cases he : e = .cancel
      · rw [he]; rfl
      · rw [cancelled_step p s e he]; exact hs
    refine ih (step p s e) hc ?_
    cases e with
    | main =>
      simp only [step]
      unfold main
      split <;> (try split) <;> (try (split <;> simp_all)) <;> simp_all
      all_goals (split <;> simp)
    | worker i =>
      simp only [step]
      split
      · rw [(worker_pc s i).1]; exact hp
      · exact hp
    | cancel => exact hp

def big (p : Par) : Nat := 10 * p.missing + p.threads + 20
def rank (p : Par) : Pc → Nat
  | .load k => if k < p.inputs then (p.inputs - 1 - k) * big p + big p else 1
  | .loading k => (p.inputs - 1 - k) * big p + big p - 1
  | .top k o => (p.inputs - 1 - k) * big p + (p.threads + 5) + (p.missing - o) * 10 + 6
  | .look k o i => (p.inputs - 1 - k) * big p + (p.threads + 5) + (p.missing - o) * 10 + (if i < p.threads then 5 else 8)
  | .give k o _ part => (p.inputs - 1 - k) * big p + (p.threads + 5) + (p.missing - o) * 10 + (3 - part)
  | .chk k o => (p.inputs - 1 - k) * big p + (p.threads + 5) + (p.missing - o) * 10 + 7
  | .wait k _ i => (p.inputs - 1 - k) * big p + 3 + (p.threads - i)
  | .after k => (p.inputs - 1 - k) * big p + 2
  | .ended _ => 0

theorem Inv.off {p s} (h : Inv p s) {i : Nat} (hi : i < p.threads) (hw : (s.ths i).working = false) : (s.ths i).ph = .idle := by
  cases hp : (s.ths i).ph with
  | idle => rfl
  | _ =>
    obtain ⟨k, a, _, w, _⟩ := inv_active h hi (.inr (by rw [hp]; nofun))
    rw [hw] at w
    exact absurd w (by decide)

theorem exec_append (p : Par) (s : St) (a b : List Ev) : exec p s (a ++ b) = exec p (exec p s a) b := List.foldl_append

theorem four {p s} (h : Inv p s) {i : Nat} (hi : i < p.threads) :
    ((worker (worker (worker (worker s i) i) i) i).ths i).working = false := by
  have hoff := h.off hi
  cases hw : (s.ths i).working with
  | false =>
    have := hoff hw
    simp [worker, setTh, this, hw]
  | true => cases hp : (s.ths i).ph <;> simp [worker, setTh, hp, hw]

/-- The threads can finish what they have, however far they are. -/
theorem flush {p} (n : Nat) : ∀ {s : St}, Inv p s →
    ∃ evs, (exec p s evs).pc = s.pc ∧ ∀ i, i < n → i < p.threads → ((exec p s evs).ths i).working = false := by
  induction n with
  | zero => intro s h; exact ⟨[], rfl, fun i hi => absurd hi (Nat.not_lt_zero _)⟩
  | succ n ih =>
    intro s h
    obtain ⟨evs, h1, h2⟩ := ih h
    by_cases hn : n < p.threads
    · refine ⟨evs ++ [.worker n, .worker n, .worker n, .worker n], ?_⟩
      have hi := inv_exec evs h
      rw [exec_append]
      generalize exec p s evs = t at *
      have he : exec p t [.worker n, .worker n, .worker n, .worker n] = worker (worker (worker (worker t n) n) n) n := by
        simp [exec, step, hn]
      rw [he]
      refine ⟨by simp only [worker_pc]; exact h1, fun i hi1 hi2 => ?_⟩
      by_cases hin : i = n
      · subst hin; exact four hi hn
      · rw [worker_other _ _ _ hin, worker_other _ _ _ hin, worker_other _ _ _ hin, worker_other _ _ _ hin]
        exact h2 i (by omega) hi2
    · exact ⟨evs, h1, fun i hi1 hi2 => h2 i (by omega) hi2⟩

theorem mul_step (n k b : Nat) (h : k + 1 < n) : (n - 1 - k) * b = (n - 1 - (k + 1)) * b + b := by
  have : n - 1 - k = (n - 1 - (k + 1)) + 1 := by omega
  rw [this, Nat.succ_mul]

theorem main_lowers {p s} (ht : 0 < p.threads) (h : Inv p s) (hoff : ∀ i, i < p.threads → (s.ths i).working = false)
    (hne : ∀ ok, s.pc ≠ .ended ok) : rank p (main p s).pc < rank p s.pc := by
  unfold Inv at h
  unfold main
  split at h <;> rename_i hk
  · simp only [hk]
    split
    · rename_i hlt
      simp only [rank, if_pos hlt]
      unfold big
      omega
    · rename_i hlt
      simp only [rank, if_neg hlt]
      omega
  · simp only [hk, rank]
    unfold big
    simp only [Nat.sub_zero]
    omega
  · simp only [hk]
    split
    · simp only [rank, if_pos ht]; omega
    · simp only [rank]; omega
  · rename_i k o i
    simp only [hk]
    by_cases hi : i < p.threads
    · simp only [if_pos hi, hoff i hi, Bool.false_eq_true, if_false, rank]; omega
    · simp only [if_neg hi, rank]; omega
  · rename_i k o i part
    obtain ⟨_, h2, _, _, h5, _⟩ := h
    simp only [hk]
    match part, h5 with
    | 0, _ => simp only [rank]; omega
    | 1, _ => simp only [rank]; omega
    | 2, _ => simp only [rank]; omega
    | 3, _ => simp only [rank]; omega
  · simp only [hk]
    split <;> simp only [rank] <;> omega
  · rename_i k o i
    simp only [hk]
    by_cases hi : i < p.threads
    · simp only [if_pos hi, hoff i hi, Bool.false_eq_true, if_false, rank]; omega
    · simp only [if_neg hi, rank]; omega
  · rename_i k
    obtain ⟨_, a, hr, _⟩ := h
    have := hr.k_lt
    simp only [hk]
    split
    · simp only [rank]; omega
    · simp only [rank]
      by_cases hl : k + 1 < p.inputs
      · rw [if_pos hl, mul_step p.inputs k (big p) hl]; omega
      · rw [if_neg hl]; omega
  · exact absurd hk (hne _)

/-- It never gets stuck: from every state which can be reached, whatever was done in which order, the piece can be finished; the thread of the
check goes on as soon as the threads have done what they were given. -/
theorem can_end {p s} (ht : 0 < p.threads) (h : Begin p s) (evs : List Ev) :
    ∃ more ok, (exec p s (evs ++ more)).pc = .ended ok := by
  have hi := inv_reach h evs
  simp only [exec_append]
  generalize exec p s evs = t at hi
  generalize hn : rank p t.pc = n
  induction n using Nat.strongRecOn generalizing t with
  | ind n ih =>
    by_cases hend : ∃ ok, t.pc = .ended ok
    · obtain ⟨ok, hok⟩ := hend
      exact ⟨[], ok, hok⟩
    · obtain ⟨fl, f1, f2⟩ := flush p.threads hi
      have hi2 := inv_exec fl hi
      have hlow := main_lowers ht hi2 (fun i hi => f2 i hi hi) (by rw [f1]; exact fun ok hh => hend ⟨ok, hh⟩)
      rw [f1, hn] at hlow
      obtain ⟨more, ok, hm⟩ := ih _ hlow (main p (exec p t fl)) (inv_main hi2) rfl
      exact ⟨fl ++ .main :: more, ok, by rw [exec_append]; exact hm⟩

/-- There are at least one and never more threads than missing blocks, and not more than the option says. -/
theorem threads_limits (option cores : Int) (missing : Nat) (hm : 0 < missing) :
    1 ≤ threads option cores missing ∧ threads option cores missing ≤ missing ∧
      (0 < option → threads option cores missing ≤ option) := by
  simp only [threads]
  repeat' split
  all_goals omega

/-- Two threads, three missing blocks, two input blocks; the threads run one after the other, and the second in between. -/
def exPar : Par := { threads := 2, missing := 3, inputs := 2, len := 7 }
def exBegin : St := { ths := fun _ => {} }
def exEvs : List Ev :=
  (List.replicate 40 [Ev.main, .main, .worker 0, .main, .worker 1, .main, .main, .worker 1, .worker 0]).flatten

example : Begin exPar exBegin := ⟨rfl, fun _ _ => ⟨rfl, rfl⟩, fun _ => rfl⟩
example : (exec exPar exBegin exEvs).pc = .ended true := by decide +kernel
example : (exec exPar exBegin exEvs).outs 2 = [⟨0, 7, some 0, some 0⟩, ⟨1, 7, some 1, some 1⟩] := by decide +kernel
/-- Both threads at work at the same time. -/
example : ((exec exPar exBegin (List.replicate 16 .main)).ths 0).working ∧ ((exec exPar exBegin (List.replicate 16 .main)).ths 1).working := by
  decide +kernel
example : (exec exPar exBegin (List.replicate 16 .main ++ .cancel :: exEvs)).pc = .ended false := by decide +kernel
example : threads 0 8 3 = 3 ∧ threads 2 8 3 = 2 ∧ threads 0 (-1) 3 = 1 := by decide

end Verif.ParThreads
