import Mathlib.Algebra.BigOperators.Ring.Finset
import Mathlib.Algebra.BigOperators.Field
import Mathlib.LinearAlgebra.Vandermonde
import Mathlib.Tactic.Ring
import Mathlib.Tactic.FieldSimp
import Verif.ReedSolomon
/-
The elimination of the repairer over any field: what one row does, that equations are kept, and when no pivot is 0.
-/
namespace Verif.Rs
open Finset

section
variable {G : Type} [Field G] [DecidableEq G]

theorem scale_get (row : Nat) (p : G) (n lo : Nat) (m : Mat G) (r c : Nat) :
    cols (scaleCell row p) lo n m r c = if r = row ∧ lo ≤ c ∧ c < lo + n then m r c / p else m r c := by
  induction n generalizing lo m with
  | zero => rw [if_neg (by omega)]; rfl
  | succ n ih =>
    rw [cols, ih]
    have hb : scaleCell row p lo m r c = if r = row ∧ c = lo then m r c / p else m r c := by
      unfold scaleCell put
      by_cases q : m row lo ≠ 0
      · rw [if_pos q]
        by_cases e : r = row ∧ c = lo
        · rw [if_pos e, if_pos e, e.1, e.2]
        · rw [if_neg e, if_neg e]
      · rw [if_neg q]
        by_cases e : r = row ∧ c = lo
        · rw [if_pos e, e.1, e.2, not_not.mp q, zero_div]
        · rw [if_neg e]
    rw [hb]
    by_cases e : r = row ∧ c = lo
    · rw [if_neg (by omega), if_pos e, if_pos (by omega)]
    · rw [if_neg e]
      by_cases f : r = row ∧ lo + 1 ≤ c ∧ c < lo + 1 + n
      · rw [if_pos f, if_pos (by omega)]
      · rw [if_neg f, if_neg (by omega)]

theorem subScaled_get (row row2 : Nat) (hne : row ≠ row2) (k : G) (n lo : Nat) (m : Mat G) (r c : Nat) :
    cols (subScaledCell row row2 k) lo n m r c = if r = row2 ∧ lo ≤ c ∧ c < lo + n then m r c - m row c * k else m r c := by
  induction n generalizing lo m with
  | zero => rw [if_neg (by omega)]; rfl
  | succ n ih =>
    rw [cols, ih]
    have hb : ∀ r c, subScaledCell row row2 k lo m r c = if r = row2 ∧ c = lo then m r c - m row c * k else m r c := by
      intro r c
      unfold subScaledCell put
      by_cases q : m row lo ≠ 0
      · rw [if_pos q]
        by_cases e : r = row2 ∧ c = lo
        · rw [if_pos e, if_pos e, e.1, e.2]
        · rw [if_neg e, if_neg e]
      · rw [if_neg q]
        by_cases e : r = row2 ∧ c = lo
        · rw [if_pos e, e.1, e.2, not_not.mp q, zero_mul, sub_zero]
        · rw [if_neg e]
    rw [hb, hb row c, if_neg (show ¬ (row = row2 ∧ c = lo) from fun h => hne h.1)]
    by_cases e : r = row2 ∧ c = lo
    · rw [if_neg (by omega), if_pos e, if_pos (by omega)]
    · rw [if_neg e]
      by_cases f : r = row2 ∧ lo + 1 ≤ c ∧ c < lo + 1 + n
      · rw [if_pos f, if_pos (by omega)]
      · rw [if_neg f, if_neg (by omega)]

theorem subCell_eq (row row2 : Nat) : (subCell row row2 : Nat → Mat G → Mat G) = subScaledCell row row2 1 := by
  funext col m; unfold subCell subScaledCell; rw [mul_one]

theorem elimRow_left (rows lc row row2 : Nat) (s : Mats G) (r c : Nat) :
    (elimRow rows lc row row2 s).left r c =
      if r = row2 ∧ row ≠ row2 ∧ c < lc then s.left r c - s.left row c * s.right row2 row else s.left r c := by
  unfold elimRow
  by_cases h : row ≠ row2
  · rw [if_pos h]
    dsimp only
    by_cases h1 : s.right row2 row = 1
    · rw [if_pos h1]
      dsimp only
      rw [subCell_eq, subScaled_get _ _ h, h1]
      by_cases q : r = row2 ∧ 0 ≤ c ∧ c < 0 + lc
      · rw [if_pos q, if_pos (by omega)]
      · rw [if_neg q, if_neg (by omega)]
    · rw [if_neg h1]
      by_cases h0 : s.right row2 row ≠ 0
      · rw [if_pos h0]
        dsimp only
        rw [subScaled_get _ _ h]
        by_cases q : r = row2 ∧ 0 ≤ c ∧ c < 0 + lc
        · rw [if_pos q, if_pos (by omega)]
        · rw [if_neg q, if_neg (by omega)]
      · rw [if_neg h0, not_not.mp h0, mul_zero, sub_zero, ite_self]
  · rw [if_neg h, if_neg (by omega)]

theorem elimRow_right (rows lc row row2 : Nat) (hr : row ≤ rows) (s : Mats G) (r c : Nat) :
    (elimRow rows lc row row2 s).right r c =
      if r = row2 ∧ row ≠ row2 ∧ row ≤ c ∧ c < rows then s.right r c - s.right row c * s.right row2 row else s.right r c := by
  unfold elimRow
  by_cases h : row ≠ row2
  · rw [if_pos h]
    dsimp only
    by_cases h1 : s.right row2 row = 1
    · rw [if_pos h1]
      dsimp only
      rw [subCell_eq, subScaled_get _ _ h, h1]
      by_cases q : r = row2 ∧ row ≤ c ∧ c < row + (rows - row)
      · rw [if_pos q, if_pos (by omega)]
      · rw [if_neg q, if_neg (by omega)]
    · rw [if_neg h1]
      by_cases h0 : s.right row2 row ≠ 0
      · rw [if_pos h0]
        dsimp only
        rw [subScaled_get _ _ h]
        by_cases q : r = row2 ∧ row ≤ c ∧ c < row + (rows - row)
        · rw [if_pos q, if_pos (by omega)]
        · rw [if_neg q, if_neg (by omega)]
      · rw [if_neg h0, not_not.mp h0, mul_zero, sub_zero, ite_self]
  · rw [if_neg h, if_neg (by omega)]

theorem elimRows_get (rows lc row : Nat) (hr : row < rows) (n a : Nat) (s : Mats G) (r c : Nat) :
    (elimRows rows lc row a n s).left r c =
        (if a ≤ r ∧ r < a + n ∧ r ≠ row ∧ c < lc then s.left r c - s.left row c * s.right r row else s.left r c) ∧
    (elimRows rows lc row a n s).right r c =
        (if a ≤ r ∧ r < a + n ∧ r ≠ row ∧ row ≤ c ∧ c < rows then s.right r c - s.right row c * s.right r row else s.right r c) := by
  induction n generalizing a s with
  | zero => rw [if_neg (by omega), if_neg (by omega)]; exact ⟨rfl, rfl⟩
  | succ n ih =>
    rw [elimRows]
    obtain ⟨i1, i2⟩ := ih (a + 1) (elimRow rows lc row a s)
    rw [i1, i2]
    rw [elimRow_left, elimRow_left, elimRow_right _ _ _ _ (by omega), elimRow_right _ _ _ _ (by omega), elimRow_right _ _ _ _ (by omega)]
    rw [if_neg (show ¬ (row = a ∧ row ≠ a ∧ c < lc) by omega), if_neg (show ¬ (row = a ∧ row ≠ a ∧ row ≤ c ∧ c < rows) by omega)]
    by_cases e : r = a
    · subst e
      constructor
      · rw [if_neg (by omega)]
        by_cases q : r = r ∧ row ≠ r ∧ c < lc
        · rw [if_pos q, if_pos (by omega)]
        · rw [if_neg q, if_neg (by omega)]
      · rw [if_neg (by omega)]
        by_cases q : r = r ∧ row ≠ r ∧ row ≤ c ∧ c < rows
        · rw [if_pos q, if_pos (by omega)]
        · rw [if_neg q, if_neg (by omega)]
    · rw [if_neg (show ¬ (r = a ∧ row ≠ a ∧ c < lc) by omega), if_neg (show ¬ (r = a ∧ row ≠ a ∧ row ≤ row ∧ row < rows) by omega),
        if_neg (show ¬ (r = a ∧ row ≠ a ∧ row ≤ c ∧ c < rows) by omega)]
      constructor
      · by_cases q : a + 1 ≤ r ∧ r < a + 1 + n ∧ r ≠ row ∧ c < lc
        · rw [if_pos q, if_pos (by omega)]
        · rw [if_neg q, if_neg (by omega)]
      · by_cases q : a + 1 ≤ r ∧ r < a + 1 + n ∧ r ≠ row ∧ row ≤ c ∧ c < rows
        · rw [if_pos q, if_pos (by omega)]
        · rw [if_neg q, if_neg (by omega)]

theorem scaleRow_get (rows lc row : Nat) (hr : row < rows) (s : Mats G) (hp : s.right row row ≠ 0)
    (hz : ∀ c, c < row → s.right row c = 0) (r c : Nat) :
    (c < lc → (scaleRow rows lc row (s.right row row) s).left r c = if r = row then s.left r c / s.right row row else s.left r c) ∧
    (c < rows → (scaleRow rows lc row (s.right row row) s).right r c = if r = row then s.right r c / s.right row row else s.right r c) := by
  unfold scaleRow
  by_cases h : s.right row row ≠ 1
  · rw [if_pos h]
    dsimp only
    rw [scale_get, scale_get]
    refine ⟨fun hc => ?_, fun hc => ?_⟩
    · by_cases e : r = row
      · rw [if_pos (by omega), if_pos e]
      · rw [if_neg (by omega), if_neg e]
    · unfold put
      by_cases e : r = row
      · rw [if_pos e]
        by_cases e2 : c = row
        · rw [if_neg (by omega), if_pos ⟨e, e2⟩, e, e2, div_self hp]
        · rw [if_neg (show ¬ (r = row ∧ c = row) by omega)]
          by_cases e3 : row < c
          · rw [if_pos (by omega)]
          · rw [if_neg (by omega), e, hz c (by omega), zero_div]
      · rw [if_neg (show ¬ (r = row ∧ c = row) by omega), if_neg (by omega), if_neg e]
  · rw [if_neg h, not_not.mp h]
    simp only [div_one, ite_self, implies_true, and_self]

/-- What one row of the elimination does to both matrices. -/
theorem pivot_get (rows lc row : Nat) (hr : row < rows) (s : Mats G) (hp : s.right row row ≠ 0)
    (hz : ∀ c, c < row → s.right row c = 0) (r c : Nat) (hrr : r < rows) :
    (c < lc → (elimRows rows lc row 0 rows (scaleRow rows lc row (s.right row row) s)).left r c =
      if r = row then s.left row c / s.right row row else s.left r c - s.left row c / s.right row row * s.right r row) ∧
    (c < rows → (elimRows rows lc row 0 rows (scaleRow rows lc row (s.right row row) s)).right r c =
      if r = row then s.right row c / s.right row row else s.right r c - s.right row c / s.right row row * s.right r row) := by
  obtain ⟨e1, e2⟩ := elimRows_get rows lc row hr rows 0 (scaleRow rows lc row (s.right row row) s) r c
  rw [e1, e2]
  obtain ⟨a1, a2⟩ := scaleRow_get rows lc row hr s hp hz r c
  obtain ⟨b1, b2⟩ := scaleRow_get rows lc row hr s hp hz row c
  obtain ⟨_, c2⟩ := scaleRow_get rows lc row hr s hp hz r row
  refine ⟨fun hc => ?_, fun hc => ?_⟩
  · rw [a1 hc, b1 hc, c2 hr, if_pos rfl]
    by_cases e : r = row
    · rw [if_neg (by omega), if_pos e, if_pos e, e]
    · rw [if_pos (by omega), if_neg e, if_neg e, if_neg e]
  · rw [a2 hc, b2 hc, c2 hr, if_pos rfl]
    by_cases e : r = row
    · rw [if_neg (by omega), if_pos e, if_pos e, e]
    · rw [if_neg e, if_neg e, if_neg e]
      by_cases f : row ≤ c
      · rw [if_pos (by omega)]
      · rw [if_neg (by omega), hz c (by omega), zero_div, zero_mul, sub_zero]

/-- The columns which are done. -/
def Unit (rows k : Nat) (s : Mats G) : Prop := ∀ r, r < rows → ∀ c, c < k → s.right r c = if r = c then 1 else 0

/-- The columns of the recovery blocks to be computed. -/
def Rest (rows dm : Nat) (s : Mats G) : Prop := ∀ r, r < rows → ∀ c, dm ≤ c → c < rows → s.right r c = if r = c then 1 else 0

/-- The equations between inputs and outputs. -/
def Eqs (rows lc : Nat) (X Y : Nat → G) (s : Mats G) : Prop :=
  ∀ r, r < rows → ∑ c ∈ range lc, s.left r c * X c = ∑ c ∈ range rows, s.right r c * Y c

theorem unit_zero {rows k : Nat} {s : Mats G} (h : Unit rows k s) (hk : k < rows) : ∀ c, c < k → s.right k c = 0 := by
  intro c hc; rw [h k hk c hc, if_neg (by omega)]

theorem step_unit (rows lc k : Nat) (hk : k < rows) (s : Mats G) (hp : s.right k k ≠ 0) (h : Unit rows k s) :
    Unit rows (k + 1) (elimRows rows lc k 0 rows (scaleRow rows lc k (s.right k k) s)) := by
  intro r hr c hc
  rw [(pivot_get rows lc k hk s hp (unit_zero h hk) r c hr).2 (by omega)]
  by_cases e : r = k
  · rw [if_pos e]
    by_cases e2 : c = k
    · rw [e2, div_self hp, if_pos e]
    · rw [unit_zero h hk c (by omega), zero_div, if_neg (by omega)]
  · rw [if_neg e]
    by_cases e2 : c = k
    · rw [e2, div_self hp, one_mul, sub_self, if_neg e]
    · rw [unit_zero h hk c (by omega), zero_div, zero_mul, sub_zero, h r hr c (by omega)]

theorem step_rest (rows lc k dm : Nat) (hk : k < dm) (hd : dm ≤ rows) (s : Mats G) (hp : s.right k k ≠ 0) (h : Unit rows k s)
    (h2 : Rest rows dm s) : Rest rows dm (elimRows rows lc k 0 rows (scaleRow rows lc k (s.right k k) s)) := by
  intro r hr c hc1 hc2
  rw [(pivot_get rows lc k (by omega) s hp (unit_zero h (by omega)) r c hr).2 hc2]
  have hz : s.right k c = 0 := by rw [h2 k (by omega) c hc1 hc2, if_neg (by omega)]
  rw [hz, zero_div, zero_mul, sub_zero]
  by_cases e : r = k
  · rw [if_pos e, if_neg (by omega)]
  · rw [if_neg e, h2 r hr c hc1 hc2]

theorem step_eqs (rows lc k : Nat) (hk : k < rows) (s : Mats G) (hp : s.right k k ≠ 0) (h : Unit rows k s) (X Y : Nat → G)
    (h2 : Eqs rows lc X Y s) : Eqs rows lc X Y (elimRows rows lc k 0 rows (scaleRow rows lc k (s.right k k) s)) := by
  intro r hr
  have u1 : ∑ c ∈ range lc, (elimRows rows lc k 0 rows (scaleRow rows lc k (s.right k k) s)).left r c * X c =
      ∑ c ∈ range lc, (if r = k then s.left k c / s.right k k else s.left r c - s.left k c / s.right k k * s.right r k) * X c :=
    sum_congr rfl (fun c hc => by rw [(pivot_get rows lc k hk s hp (unit_zero h hk) r c hr).1 (mem_range.mp hc)])
  have u2 : ∑ c ∈ range rows, (elimRows rows lc k 0 rows (scaleRow rows lc k (s.right k k) s)).right r c * Y c =
      ∑ c ∈ range rows, (if r = k then s.right k c / s.right k k else s.right r c - s.right k c / s.right k k * s.right r k) * Y c :=
    sum_congr rfl (fun c hc => by rw [(pivot_get rows lc k hk s hp (unit_zero h hk) r c hr).2 (mem_range.mp hc)])
  rw [u1, u2]
  clear u1 u2
  by_cases e : r = k
  · simp only [if_pos e]
    have := h2 k hk
    have l : ∀ (f : Nat → G) (Z : Nat → G) n, ∑ c ∈ range n, f c / s.right k k * Z c = (∑ c ∈ range n, f c * Z c) / s.right k k := by
      intro f Z n; rw [sum_div]; exact sum_congr rfl (fun c _ => by ring)
    rw [l, l, this]
  · simp only [if_neg e]
    have l : ∀ (g f : Nat → G) (Z : Nat → G) n, ∑ c ∈ range n, (g c - f c / s.right k k * s.right r k) * Z c =
        (∑ c ∈ range n, g c * Z c) - (∑ c ∈ range n, f c * Z c) / s.right k k * s.right r k := by
      intro g f Z n
      rw [sum_div, sum_mul, ← sum_sub_distrib]
      exact sum_congr rfl (fun c _ => by ring)
    rw [l (s.left r) (s.left k), l (s.right r) (s.right k), h2 r hr, h2 k hk]

/-- A finished elimination solves the equations. -/
theorem gauss_solves (rows lc dm : Nat) (hd : dm ≤ rows) (X Y : Nat → G) (n k : Nat) (hk : k + n = dm) (s t : Mats G)
    (h1 : Unit rows k s) (h2 : Rest rows dm s) (h3 : Eqs rows lc X Y s) (h : gauss rows lc k n s = some t) :
    ∀ r, r < rows → ∑ c ∈ range lc, t.left r c * X c = Y r := by
  induction n generalizing k s with
  | zero =>
    rw [gauss] at h
    injection h with h
    subst h
    intro r hr
    rw [h3 r hr, sum_eq_single r]
    · by_cases q : r < k
      · rw [h1 r hr r q, if_pos rfl, one_mul]
      · rw [h2 r hr r (by omega) hr, if_pos rfl, one_mul]
    · intro c hc ne
      have hc := mem_range.mp hc
      by_cases q : c < k
      · rw [h1 r hr c q, if_neg (Ne.symm ne), zero_mul]
      · rw [h2 r hr c (by omega) hc, if_neg (Ne.symm ne), zero_mul]
    · intro ne; exact absurd (mem_range.mpr hr) ne
  | succ n ih =>
    rw [gauss] at h
    by_cases q : s.right k k = 0
    · rw [if_pos q] at h; exact nomatch h
    · rw [if_neg q] at h
      exact ih (k + 1) (by omega) _ (step_unit rows lc k (by omega) s q h1) (step_rest rows lc k dm (by omega) hd s q h1 h2)
        (step_eqs rows lc k (by omega) s q h1 X Y h3) h

/-! ### No pivot is 0 if the exponents follow each other -/

/-- Each row is a combination of the first `k` rows of the beginning, plus its own if it was not the pivot yet. -/
def Span (rows k : Nat) (R0 : Mat G) (s : Mats G) : Prop :=
  ∀ r, r < rows → ∃ a : Nat → G, ∀ c, c < rows →
    s.right r c = (∑ j ∈ range k, a j * R0 j c) + if k ≤ r then R0 r c else 0

theorem step_span (rows lc k : Nat) (hk : k < rows) (s : Mats G) (hp : s.right k k ≠ 0) (h : Unit rows k s) (R0 : Mat G)
    (h2 : Span rows k R0 s) : Span rows (k + 1) R0 (elimRows rows lc k 0 rows (scaleRow rows lc k (s.right k k) s)) := by
  obtain ⟨a, ha⟩ := h2 k hk
  intro r hr
  by_cases e : r = k
  · refine ⟨fun j => (if j = k then 1 else a j) / s.right k k, fun c hc => ?_⟩
    rw [(pivot_get rows lc k hk s hp (unit_zero h hk) r c hr).2 hc, if_pos e, ha c hc, if_pos (Nat.le_refl k), if_neg (by omega),
      sum_range_succ, add_zero, add_div, sum_div]
    dsimp only
    rw [if_pos rfl]
    congr 1
    · refine sum_congr rfl (fun j hj => ?_)
      have := mem_range.mp hj
      rw [if_neg (by omega)]; ring
    · ring
  · obtain ⟨b, hb⟩ := h2 r hr
    refine ⟨fun j => (if j = k then 0 else b j) - (if j = k then 1 else a j) / s.right k k * s.right r k, fun c hc => ?_⟩
    rw [(pivot_get rows lc k hk s hp (unit_zero h hk) r c hr).2 hc, if_neg e, hb c hc, ha c hc, if_pos (Nat.le_refl k),
      sum_range_succ]
    dsimp only
    rw [if_pos rfl, if_pos rfl]
    have l : ∑ j ∈ range k, ((if j = k then 0 else b j) - (if j = k then 1 else a j) / s.right k k * s.right r k) * R0 j c =
        (∑ j ∈ range k, b j * R0 j c) - (∑ j ∈ range k, a j * R0 j c) / s.right k k * s.right r k := by
      rw [sum_div, sum_mul, ← sum_sub_distrib]
      refine sum_congr rfl (fun j hj => ?_)
      have := mem_range.mp hj
      rw [if_neg (by omega), if_neg (by omega)]; ring
    rw [l]
    have f : (if k ≤ r then R0 r c else 0) = if k + 1 ≤ r then R0 r c else 0 := by
      by_cases q : k ≤ r
      · rw [if_pos q, if_pos (by omega)]
      · rw [if_neg q, if_neg (by omega)]
    rw [f]
    ring

/-- A combination of the powers of distinct elements is not 0 everywhere. -/
theorem no_relation (k : Nat) (x : Nat → G) (hx : ∀ i j, i ≤ k → j ≤ k → x i = x j → i = j) (a : Nat → G)
    (h : ∀ c, c ≤ k → (∑ j ∈ range k, a j * x c ^ j) + x c ^ k = 0) : False := by
  have hv := Matrix.eq_zero_of_forall_index_sum_mul_pow_eq_zero (n := k + 1) (f := fun i : Fin (k + 1) => x i)
    (v := fun i : Fin (k + 1) => if (i : Nat) = k then 1 else a i)
    (fun i j e => Fin.ext (hx i j (by omega) (by omega) e))
    (fun c => by
      have := h c (by omega)
      rw [Fin.sum_univ_eq_sum_range (fun i => (if i = k then 1 else a i) * x c ^ i), sum_range_succ, if_pos rfl, one_mul, ← this]
      congr 1
      exact sum_congr rfl (fun j hj => by rw [if_neg (by have := mem_range.mp hj; omega)]))
  have := congrFun hv ⟨k, by omega⟩
  simp at this

theorem gauss_succeeds (rows lc dm : Nat) (hd : dm ≤ rows) (x : Nat → G) (d : Nat → G)
    (hx : ∀ i j, i < dm → j < dm → x i = x j → i = j) (h0 : ∀ i, i < dm → d i ≠ 0) (R0 : Mat G)
    (hR : ∀ j c, j < dm → c < dm → R0 j c = d c * x c ^ j) (n k : Nat) (hk : k + n = dm) (s : Mats G)
    (h1 : Unit rows k s) (h2 : Span rows k R0 s) : ∃ t, gauss rows lc k n s = some t := by
  induction n generalizing k s with
  | zero => exact ⟨s, rfl⟩
  | succ n ih =>
    rw [gauss]
    by_cases q : s.right k k = 0
    · exfalso
      obtain ⟨a, ha⟩ := h2 k (by omega)
      refine no_relation k x (fun i j hi hj e => hx i j (by omega) (by omega) e) a (fun c hc => ?_)
      have hzero : s.right k c = 0 := by
        by_cases e : c = k
        · rw [e]; exact q
        · exact unit_zero h1 (by omega) c (by omega)
      have := ha c (by omega)
      rw [hzero, if_pos (Nat.le_refl k), hR k c (by omega) (by omega)] at this
      rw [sum_congr rfl (fun j hj => by rw [hR j c (by have := mem_range.mp hj; omega) (by omega)])] at this
      have l : (∑ j ∈ range k, a j * (d c * x c ^ j)) + d c * x c ^ k = d c * ((∑ j ∈ range k, a j * x c ^ j) + x c ^ k) := by
        rw [mul_add, mul_sum]
        congr 1
        exact sum_congr rfl (fun j _ => by ring)
      rw [l] at this
      exact (mul_eq_zero.mp this.symm).resolve_left (h0 c (by omega))
    · rw [if_neg q]
      exact ih (k + 1) (by omega) _ (step_unit rows lc k (by omega) s q h1) (step_span rows lc k (by omega) s q h1 R0 h2)

end
end Verif.Rs
