/-
C29: the speed meter.
-/
import Verif.Quota
import Verif.VolumeProps

namespace Verif.Quota
open Verif.Volume

/-- A sequence of calls. -/
def runMeter (m : Meter) (l : List MeterOp) : Option Meter := l.foldlM MeterOp.run m

/-- What the property says about a state. -/
def MeterOk (m : Meter) : Prop :=
  m.bytes.length = 30 ∧ m.times.length = 30 ∧ 0 ≤ m.index ∧ m.index < 30 ∧ m.total = m.bytes.sum

theorem sum_set (l : List Int) (i : Nat) (h : i < l.length) : (l.set i 0).sum = l.sum - l.getD i 0 := by
  induction l generalizing i with
  | nil => simp at h
  | cons x l ih =>
    cases i with
    | zero => simp; omega
    | succ i => simp at h; have := ih i h; simp [this]; omega

theorem advance_ok (m : Meter) (slot : Int) (h : MeterOk m) :
    ∃ m', advance m slot = some m' ∧ MeterOk m' ∧ m'.times.getD m'.index.toNat 0 = slot ∧
      m'.start ∈ m.times ∧ (∀ t ∈ m'.times, t = slot ∨ t ∈ m.times) ∧ (∀ b ∈ m'.bytes, b = 0 ∨ b ∈ m.bytes) ∧
      m'.correction = m.correction ∧ m'.curSecTime = m.curSecTime ∧ m'.curSecBytes = m.curSecBytes := by
  obtain ⟨h1, h2, h3, h4, h5⟩ := h
  unfold advance
  dsimp only
  have hi : 0 ≤ (if m.index + 1 ≥ 30 then 0 else m.index + 1) ∧ (if m.index + 1 ≥ 30 then 0 else m.index + 1) < 30 := by
    by_cases hx : m.index + 1 ≥ 30
    · rw [if_pos hx]; omega
    · rw [if_neg hx]; omega
  generalize (if m.index + 1 ≥ 30 then 0 else m.index + 1) = i at hi
  rw [if_pos (by omega)]
  refine ⟨_, rfl, ⟨by simpa using h1, by simpa using h2, hi.1, hi.2, ?_⟩, ?_, ?_, ?_, ?_, rfl, rfl, rfl⟩
  · dsimp only
    rw [sum_set _ _ (by omega), h5]
  · dsimp only
    simp only [List.getD_eq_getElem?_getD]
    rw [List.getElem?_set_self (by omega)]
    rfl
  · dsimp only
    simp only [List.getD_eq_getElem?_getD]
    rw [List.getElem?_eq_getElem (by omega)]
    exact List.getElem_mem _
  · intro t ht
    rcases List.mem_or_eq_of_mem_set ht with x | x
    · exact .inr x
    · exact .inl x
  · intro b hb
    rcases List.mem_or_eq_of_mem_set hb with x | x
    · exact .inr x
    · exact .inl x

/-- The loop makes at most one turn. -/
theorem advanceLoop_ok (m : Meter) (slot : Int) (h : MeterOk m) :
    ∃ m', advanceLoop slot 2 m = some m' ∧ MeterOk m' ∧ (m'.start ∈ m.times ∨ m'.start = m.start) ∧
      (∀ t ∈ m'.times, t = slot ∨ t ∈ m.times) ∧ (∀ b ∈ m'.bytes, b = 0 ∨ b ∈ m.bytes) ∧
      m'.correction = m.correction ∧ m'.curSecTime = m.curSecTime ∧ m'.curSecBytes = m.curSecBytes := by
  have h' := h
  obtain ⟨h1, h2, h3, h4, h5⟩ := h'
  unfold advanceLoop
  rw [if_pos (by omega)]
  by_cases hs : slot > m.times.getD m.index.toNat 0
  · rw [if_pos hs]
    obtain ⟨m', e, a1, a2, a3, a4, a5, a6⟩ := advance_ok m slot h
    refine ⟨m', ?_, a1, .inl a3, a4, a5, a6⟩
    rw [e]
    simp only [Option.bind_some]
    unfold advanceLoop
    obtain ⟨_, b2, b3, b4, _⟩ := a1
    rw [if_pos (by omega), if_neg (by omega)]
  · rw [if_neg hs]
    exact ⟨m, rfl, h, .inr rfl, fun t ht => .inr ht, fun b hb => .inr hb, rfl, rfl, rfl⟩

theorem addSpeed_ok (m : Meter) (now bytes : Int) (h : MeterOk m) :
    ∃ m', addSpeed m now bytes = some m' ∧ MeterOk m' ∧
      (m'.start ∈ m.times ∨ m'.start = m.start ∨ m'.start = toI32 now) ∧
      (∀ t ∈ m'.times, t = toI32 now ∨ t ∈ m.times) ∧ ((∀ b ∈ m.bytes, 0 ≤ b) → 0 ≤ bytes → ∀ b ∈ m'.bytes, 0 ≤ b) ∧
      m'.curSecTime = now ∧ m'.curSecBytes = (if now = m.curSecTime then m.curSecBytes else 0) + bytes := by
  unfold addSpeed
  dsimp only
  have h0 : ∃ m0, ({ (if now ≠ m.curSecTime then { m with curSecTime := now, curSecBytes := 0 } else m) with
      curSecBytes := (if now ≠ m.curSecTime then { m with curSecTime := now, curSecBytes := 0 } else m).curSecBytes + bytes } : Meter) = m0 ∧
      MeterOk m0 ∧ m0.times = m.times ∧ m0.bytes = m.bytes ∧ m0.start = m.start ∧ m0.curSecTime = now ∧
      m0.curSecBytes = (if now = m.curSecTime then m.curSecBytes else 0) + bytes := by
    by_cases hc : now ≠ m.curSecTime
    · rw [if_pos hc]
      exact ⟨_, rfl, h, rfl, rfl, rfl, rfl, by rw [if_neg hc]⟩
    · rw [if_neg hc]
      have : now = m.curSecTime := Decidable.byContradiction hc
      exact ⟨_, rfl, h, rfl, rfl, rfl, this.symm, by rw [if_pos this]⟩
  obtain ⟨m0, e0, k0, t0, b0, s0, c0, d0⟩ := h0
  rw [e0]
  obtain ⟨m1, e1, k1, s1, t1, b1, r1, c1, d1⟩ := advanceLoop_ok m0 (toI32 now) k0
  rw [e1]
  simp only [Option.bind_some]
  -- correction of the total
  have h2 : ∃ m2, (if now > m1.correction then { m1 with total := m1.bytes.sum, correction := now } else m1) = m2 ∧
      MeterOk m2 ∧ m2.times = m1.times ∧ m2.bytes = m1.bytes ∧ m2.start = m1.start ∧ m2.curSecTime = m1.curSecTime ∧
      m2.curSecBytes = m1.curSecBytes := by
    by_cases hc : now > m1.correction
    · rw [if_pos hc]
      exact ⟨_, rfl, ⟨k1.1, k1.2.1, k1.2.2.1, k1.2.2.2.1, rfl⟩, rfl, rfl, rfl, rfl, rfl⟩
    · rw [if_neg hc]
      exact ⟨_, rfl, k1, rfl, rfl, rfl, rfl, rfl⟩
  obtain ⟨m2, e2, k2, t2, b2, s2, c2, d2⟩ := h2
  rw [e2]
  have h3 : ∃ m3, (if m2.total = 0 then { m2 with start := toI32 now } else m2) = m3 ∧
      MeterOk m3 ∧ m3.times = m2.times ∧ m3.bytes = m2.bytes ∧ (m3.start = m2.start ∨ m3.start = toI32 now) ∧
      m3.curSecTime = m2.curSecTime ∧ m3.curSecBytes = m2.curSecBytes := by
    by_cases hc : m2.total = 0
    · rw [if_pos hc]
      exact ⟨_, rfl, k2, rfl, rfl, .inr rfl, rfl, rfl⟩
    · rw [if_neg hc]
      exact ⟨_, rfl, k2, rfl, rfl, .inl rfl, rfl, rfl⟩
  obtain ⟨m3, e3, k3, t3, b3, s3, c3, d3⟩ := h3
  rw [e3]
  obtain ⟨k31, k32, k33, k34, k35⟩ := k3
  unfold addAt
  rw [if_pos (by omega)]
  simp only [Option.bind_some]
  refine ⟨_, rfl, ⟨by simpa using k31, k32, k33, k34, ?_⟩, ?_, ?_, ?_, ?_, ?_⟩
  · dsimp only
    rw [sum_modify _ _ _ (by omega), k35]
  · dsimp only
    rcases s3 with x | x
    · rw [x, s2]
      rcases s1 with y | y
      · rw [t0] at y; exact .inl y
      · rw [y, s0]; exact .inr (.inl rfl)
    · exact .inr (.inr x)
  · dsimp only
    rw [t3, t2, ← t0]
    exact t1
  · dsimp only
    intro hb hbytes b hmem
    rw [b3, b2] at hmem
    rw [List.mem_iff_getElem?] at hmem
    obtain ⟨j, hj⟩ := hmem
    rw [List.getElem?_modify] at hj
    have hge : ∀ x ∈ m1.bytes, 0 ≤ x := by
      intro x hx
      rcases b1 x hx with y | y
      · omega
      · rw [b0] at y; exact hb x y
    cases hq : m1.bytes[j]? with
    | none => rw [hq] at hj; simp at hj
    | some y =>
      rw [hq] at hj
      have hy := hge y (List.mem_of_getElem? hq)
      by_cases hx : m3.index.toNat = j
      · simp [hx] at hj; omega
      · simp [hx] at hj; omega
  · dsimp only
    rw [c3, c2, c1, c0]
  · dsimp only
    rw [d3, d2, d1, d0]

theorem reset_ok (now all : Int) : MeterOk (resetSpeed now all) := by
  exact ⟨rfl, rfl, Int.le_refl 0, (by show (0 : Int) < 30; decide), rfl⟩

/-- C29: whatever the clock does, the total used for the displayed speed is the sum of the thirty slots, and
the slot number stays in the ring. -/
theorem speed_total_is_sum (start all : Int) (ops : List MeterOp) :
    ∃ m, runMeter (resetSpeed start all) ops = some m ∧ m.bytes.length = 30 ∧ m.times.length = 30 ∧
      0 ≤ m.index ∧ m.index < 30 ∧ m.total = m.bytes.sum := by
  have key : ∀ ops m0, MeterOk m0 → ∃ m, runMeter m0 ops = some m ∧ MeterOk m := by
    intro ops
    induction ops with
    | nil => intro m0 h; exact ⟨m0, rfl, h⟩
    | cons op ops ih =>
      intro m0 h
      cases op with
      | add now bytes =>
        obtain ⟨m1, e1, k1, _⟩ := addSpeed_ok m0 now bytes h
        obtain ⟨m, e, k⟩ := ih m1 k1
        refine ⟨m, ?_, k⟩
        unfold runMeter at e ⊢
        simp only [List.foldlM_cons, MeterOp.run, e1]
        exact e
      | reset now =>
        obtain ⟨m, e, k⟩ := ih _ (reset_ok now m0.all)
        refine ⟨m, ?_, k⟩
        unfold runMeter at e ⊢
        simp only [List.foldlM_cons, MeterOp.run]
        exact e
  exact key ops _ (reset_ok start all)

example : (runMeter (resetSpeed 100 0) [.add 100 5, .add 103 7, .add 90 2, .reset 91, .add 95 4]).map (fun m => (m.total, m.index, m.all)) =
    some (4, 1, 18) := by decide +kernel

/-- A clock which does not go back and stays in the range of `int`, bytes which are not negative. -/
def SteadyOps : Int → List MeterOp → Prop
  | _, [] => True
  | t, .add now b :: l => t ≤ now ∧ now < 2 ^ 31 ∧ 0 ≤ b ∧ SteadyOps now l
  | t, .reset now :: l => t ≤ now ∧ now < 2 ^ 31 ∧ SteadyOps now l

/-- The time of the last call. -/
def lastCall : Int → List MeterOp → Int
  | t, [] => t
  | _, .add now _ :: l => lastCall now l
  | _, .reset now :: l => lastCall now l

/-- For such a clock the displayed speed is never negative, and never more than the total of the slots. -/
theorem speed_not_negative (start all : Int) (ops : List MeterOp) (h0 : 0 ≤ start) (h1 : start < 2 ^ 31) (hs : SteadyOps start ops) (sb : Bool)
    (now : Int) (hn : lastCall start ops ≤ now) (hn2 : now < 2 ^ 31) :
    ∃ m, runMeter (resetSpeed start all) ops = some m ∧ 0 ≤ currentSpeed m sb now ∧ currentSpeed m sb now ≤ m.total := by
  have key : ∀ ops m0 t, MeterOk m0 → 0 ≤ t → SteadyOps t ops → (∀ x ∈ m0.times, x ≤ t) → m0.start ≤ t → (∀ b ∈ m0.bytes, 0 ≤ b) →
      ∃ m, runMeter m0 ops = some m ∧ MeterOk m ∧ m.start ≤ lastCall t ops ∧ (∀ b ∈ m.bytes, 0 ≤ b) ∧ 0 ≤ lastCall t ops := by
    intro ops
    induction ops with
    | nil => intro m0 t h ht _ _ a b; exact ⟨m0, rfl, h, a, b, ht⟩
    | cons op ops ih =>
      intro m0 t h ht hs a1 a2 a3
      cases op with
      | add now bytes =>
        obtain ⟨s1, s2, s3, s4⟩ := hs
        obtain ⟨m1, e1, k1, k2, k3, k4, _⟩ := addSpeed_ok m0 now bytes h
        rw [toI32_of_nonneg (by omega) s2] at k2 k3
        obtain ⟨m, e, k⟩ := ih m1 now k1 (by omega) s4 (by
          intro x hx; rcases k3 x hx with y | y
          · omega
          · have := a1 x y; omega) (by
          rcases k2 with y | y | y
          · have := a1 _ y; omega
          · omega
          · omega) (k4 a3 s3)
        refine ⟨m, ?_, k⟩
        unfold runMeter at e ⊢
        simp only [List.foldlM_cons, MeterOp.run, e1]
        exact e
      | reset now =>
        obtain ⟨s1, s2, s4⟩ := hs
        obtain ⟨m, e, k⟩ := ih _ now (reset_ok now m0.all) (by omega) s4 (by
          intro x hx
          have := List.eq_of_mem_replicate hx
          rw [toI32_of_nonneg (by omega) s2] at this; omega) (by
          show toI32 now ≤ now
          rw [toI32_of_nonneg (by omega) s2]; omega) (by
          intro x hx
          have := List.eq_of_mem_replicate hx; omega)
        refine ⟨m, ?_, k⟩
        unfold runMeter at e ⊢
        simp only [List.foldlM_cons, MeterOp.run]
        exact e
  obtain ⟨m, e, k1, k2, k3, k4⟩ := key ops (resetSpeed start all) start (reset_ok _ _) h0 hs (by
    intro x hx
    have := List.eq_of_mem_replicate hx
    rw [toI32_of_nonneg h0 h1] at this; omega) (by
    show toI32 start ≤ start
    rw [toI32_of_nonneg h0 h1]; omega) (by
    intro x hx
    have := List.eq_of_mem_replicate hx; omega)
  refine ⟨m, e, ?_⟩
  have hsum : ∀ l : List Int, (∀ b ∈ l, 0 ≤ b) → 0 ≤ l.sum := by
    intro l
    induction l with
    | nil => simp
    | cons x l ih => intro h; have := ih (fun b hb => h b (by simp [hb])); have := h x (by simp); simp; omega
  have ht : 0 ≤ m.total := by rw [k1.2.2.2.2]; exact hsum _ k3
  unfold currentSpeed
  cases sb with
  | true => simp; exact ht
  | false =>
    simp only [Bool.false_eq_true, if_false]
    rw [toI32_of_nonneg (by omega) hn2]
    by_cases hd : now - m.start = 0
    · rw [if_pos hd]; omega
    · rw [if_neg hd]
      rw [Int.tdiv_eq_ediv_of_nonneg ht]
      constructor
      · exact Int.ediv_nonneg ht (by omega)
      · exact Int.ediv_le_self _ ht

example : SteadyOps 100 [.add 100 5, .add 103 7, .reset 103, .add 130 4] := by simp [SteadyOps]
example : (runMeter (resetSpeed 100 0) [.add 100 500, .add 103 700]).map (fun m => currentSpeed m false 110) = some 120 := by
  decide +kernel

/-- If the clock goes back, the displayed speed can be negative. -/
theorem negative_speed : ∃ ops, (runMeter (resetSpeed 100 0) ops).map (fun m => currentSpeed m false 95) = some (-100) :=
  ⟨[.add 100 500], by decide +kernel⟩

/-- The speed of the current second is the sum of the bytes reported in it. -/
theorem momentary_speed (start all : Int) (h : List (Int × Int)) (hm : h.Pairwise (fun a b => a.1 ≤ b.1)) (hp : ∀ r ∈ h, start ≤ r.1) (hst : 0 < start)
    (now : Int) (hn : ∀ r ∈ h, r.1 ≤ now) (hns : start ≤ now) :
    ∃ m, runMeter (resetSpeed start all) (h.map (fun r => .add r.1 r.2)) = some m ∧
      momentarySpeed m now = ((h.filter (fun r => r.1 == now)).map (·.2)).sum := by
  have key : ∃ m, runMeter (resetSpeed start all) (h.map (fun r => .add r.1 r.2)) = some m ∧ MeterOk m ∧
      (h = [] → m.curSecTime = 0 ∧ m.curSecBytes = 0) ∧ 
      (∀ l, h.getLast? = some l → m.curSecTime = l.1) ∧
      ∀ t, (∀ r ∈ h, r.1 ≤ t) → 0 < t → momentarySpeed m t = ((h.filter (fun r => r.1 == t)).map (·.2)).sum := by
    clear hn hns
    induction h using snoc_induction with
    | nil =>
      refine ⟨_, rfl, reset_ok _ _, fun _ => ⟨rfl, rfl⟩, by simp, ?_⟩
      intro t _ ht
      unfold momentarySpeed
      rw [if_neg (by show ¬ t = 0; omega)]
      rfl
    | snoc h r ih =>
      rw [List.pairwise_append] at hm
      obtain ⟨m, e, k, hemp, hlast, ht⟩ := ih hm.1 (fun x hx => hp x (by simp [hx]))
      obtain ⟨m', e', k', _, _, _, c1, c2⟩ := addSpeed_ok m r.1 r.2 k
      refine ⟨m', ?_, k', by simp, ?_, ?_⟩
      · unfold runMeter at e ⊢
        rw [List.map_append, List.foldlM_append, e]
        simp [MeterOp.run, e']
      · intro l hl
        simp at hl
        subst hl
        exact c1
      · intro t hle hpos
        have hrt := hle r (by simp)
        have hpr := hp r (by simp)
        have hmono : ∀ x ∈ h, x.1 ≤ r.1 := fun x hx => hm.2.2 x hx r (by simp)
        have hold := ht r.1 hmono (by omega)
        unfold momentarySpeed at hold ⊢
        rw [c1]
        by_cases hx : t = r.1
        · subst hx
          rw [if_pos rfl, c2, hold]
          simp [List.filter_append]
        · rw [if_neg hx]
          have : (h ++ [r]).filter (fun y => y.1 == t) = [] := by
            rw [List.filter_eq_nil_iff]
            intro y hy
            simp only [beq_iff_eq]
            rcases List.mem_append.1 hy with z | z
            · have := hmono y z; omega
            · simp at z; subst z; omega
          rw [this]; rfl
  obtain ⟨m, e, _, _, _, ht⟩ := key
  exact ⟨m, e, ht now hn (by omega)⟩

example : (runMeter (resetSpeed 100 0) [.add 100 5, .add 103 7, .add 103 2]).map (fun m => momentarySpeed m 103) = some 9 := by
  decide +kernel

end Verif.Quota
