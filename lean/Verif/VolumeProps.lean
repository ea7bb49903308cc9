/-
C27 and C28: the volume of each day, and the charts of the last seconds, minutes and hours.
-/
import Verif.Volume

namespace Verif.Volume

/-! ### Specification -/

/-- Bytes of the reports which satisfy `p`. -/
def bytesOf (h : List Report) (p : Report → Bool) : Int := ((h.filter p).map (·.bytes)).sum

/-- What slot `j` of a chart with `n` slots of `u` seconds should show at the local time `t`: the bytes reported in
the last of the units with this number, if that unit is one of the last `n`. -/
def slotSum (u n : Int) (h : List Report) (t j : Int) : Int :=
  bytesOf h (fun r => decide (r.loc / u % n = j ∧ t / u - n < r.loc / u))

/-- The bytes reported on the (local) day `d` after 1 January 1970. -/
def daySum (h : List Report) (d : Int) : Int := bytesOf h (fun r => decide (r.loc / 86400 = d))

/-- The clock never goes back and the offset of the local time is `off`. -/
def Steady (off : Int) (h : List Report) : Prop :=
  (∀ r ∈ h, r.off = off ∧ 0 ≤ r.now ∧ r.now < 2 ^ 31 ∧ 0 ≤ r.loc ∧ r.loc < 2 ^ 31) ∧ h.Pairwise (fun a b => a.loc ≤ b.loc)

/-- Between two reports less than one unit passes, or at least the time of the whole chart, or the second
report is not earlier in its unit than the first in its unit. -/
def GoodGaps (u n : Int) : List Report → Prop
  | [] => True
  | [_] => True
  | a :: b :: h => (b.loc - a.loc < u ∨ n * u ≤ b.loc - a.loc ∨ a.loc % u ≤ b.loc % u) ∧ GoodGaps u n (b :: h)

/-! ### Lemmas -/

theorem bytesOf_nil (p) : bytesOf [] p = 0 := rfl

theorem bytesOf_snoc (h : List Report) (r p) : bytesOf (h ++ [r]) p = bytesOf h p + if p r then r.bytes else 0 := by
  unfold bytesOf
  cases hp : p r <;> simp [List.filter_append, hp]

theorem bytesOf_congr (h : List Report) (p q : Report → Bool) (e : ∀ r ∈ h, p r = q r) : bytesOf h p = bytesOf h q := by
  unfold bytesOf
  rw [List.filter_congr e]

theorem bytesOf_false (h : List Report) (p : Report → Bool) (e : ∀ r ∈ h, p r = false) : bytesOf h p = 0 := by
  rw [bytesOf_congr h p (fun _ => false) e]
  have : h.filter (fun _ => false) = [] := by simp
  unfold bytesOf
  rw [this]
  rfl

theorem toI32_of_nonneg {t : Int} (h0 : 0 ≤ t) (h1 : t < 2 ^ 31) : toI32 t = t := by
  unfold toI32
  rw [Int.bmod_def]
  omega

/-- The clearing loop for a clock which went forward. -/
theorem clearLoop_spec {n : Int} (hn : n = 60 ∨ n = 24) (slot : Int) (hs : 0 ≤ slot ∧ slot < n) (k : Nat) (i : Int)
    (l : List Int) (hl : (l.length : Int) = n) (hi : 0 ≤ i) (hk : i + k ≤ n) :
    ∃ l', clearLoop n slot 1 k i l = some l' ∧ (l'.length : Int) = n ∧
      ∀ j : Nat, (j : Int) < n →
        l'[j]? = if i ≤ (slot - j) % n ∧ (slot - j) % n < i + k then some 0 else l[j]? := by
  induction k generalizing i l with
  | zero =>
    refine ⟨l, rfl, hl, ?_⟩
    intro j _
    rw [if_neg (by omega)]
  | succ k ih =>
    simp only [clearLoop, Int.mul_one]
    have hge : ¬ ((if slot - i < 0 then slot - i + n else slot - i) ≥ n) := by
      by_cases h : slot - i < 0
      · rw [if_pos h]; omega
      · rw [if_neg h]; omega
    rw [if_neg hge]
    have hb : 0 ≤ (if slot - i < 0 then slot - i + n else slot - i) ∧
        (if slot - i < 0 then slot - i + n else slot - i) < (l.length : Int) := by
      by_cases h : slot - i < 0
      · rw [if_pos h]; omega
      · rw [if_neg h]; omega
    rw [if_pos hb]
    obtain ⟨l', e, hl', hj⟩ := ih (i + 1) (l.set (if slot - i < 0 then slot - i + n else slot - i).toNat 0)
      (by simpa using hl) (by omega) (by omega)
    refine ⟨l', e, hl', ?_⟩
    intro j hjn
    rw [hj j hjn, List.getElem?_set]
    have hx : (if slot - i < 0 then slot - i + n else slot - i).toNat = j ↔ (slot - j) % n = i := by
      by_cases h : slot - i < 0
      · rw [if_pos h]; rcases hn with rfl | rfl <;> omega
      · rw [if_neg h]; rcases hn with rfl | rfl <;> omega
    by_cases hc : (slot - j) % n = i
    · rw [if_neg (by omega), if_pos (hx.2 hc), if_pos (by rw [hx.2 hc]; omega), if_pos (by omega)]
    · rw [if_neg (fun x => hc (hx.1 x))]
      by_cases h2 : i + 1 ≤ (slot - ↑j) % n ∧ (slot - ↑j) % n < i + 1 + ↑k
      · rw [if_pos h2, if_pos (by omega)]
      · rw [if_neg h2, if_neg (by omega)]

/-- The state of one chart after the reports `h`, the last at `t`. -/
def ChartOk (u n : Int) (l : List Int) (h : List Report) (t : Int) : Prop :=
  (l.length : Int) = n ∧ ∀ j : Nat, (j : Int) < n → l[j]? = some (slotSum u n h t j)

/-- The number of cleared slots is the number of units which began. -/
theorem clearCount_exact {u n t t' : Int} (hun : (u = 1 ∧ n = 60) ∨ (u = 60 ∧ n = 60) ∨ (u = 3600 ∧ n = 24))
    (h0 : 0 ≤ t) (h : t < t') (c : Bool) (hc : u ≠ 1 → c = decide (t' / u % n ≠ t / u % n)) 
    (hg : t' - t < u ∨ n * u ≤ t' - t ∨ t % u ≤ t' % u) :
    clearCount u n (t' - t) 1 c = min n (t' / u - t / u) := by
  unfold clearCount
  dsimp only
  rw [if_neg (by omega : ¬ (1 : Int) < 0)]
  have hd : (t' - t).tdiv u = (t' - t) / u := by rw [Int.tdiv_eq_ediv_of_nonneg (by omega)]
  rw [hd]
  rcases hun with ⟨rfl, rfl⟩ | ⟨rfl, rfl⟩ | ⟨rfl, rfl⟩
  · simp only [Int.ediv_one]
    by_cases h1 : t' - t ≥ 60
    · rw [if_pos h1, if_neg (by omega)]; omega
    · rw [if_neg h1, if_neg (by omega)]; omega
  · have hc := hc (by omega)
    rw [hc]
    simp only [decide_eq_true_eq]
    by_cases h1 : (t' - t) / 60 ≥ 60
    · rw [if_pos h1, if_neg (by omega)]; omega
    · rw [if_neg h1]
      by_cases h2 : (t' - t) / 60 = 0 ∧ t' / 60 % 60 ≠ t / 60 % 60
      · rw [if_pos h2]; omega
      · rw [if_neg h2]; omega
  · have hc := hc (by omega)
    rw [hc]
    simp only [decide_eq_true_eq]
    by_cases h1 : (t' - t) / 3600 ≥ 24
    · rw [if_pos h1, if_neg (by omega)]; omega
    · rw [if_neg h1]
      by_cases h2 : (t' - t) / 3600 = 0 ∧ t' / 3600 % 24 ≠ t / 3600 % 24
      · rw [if_pos h2]; omega
      · rw [if_neg h2]; omega

theorem clearCount_range {u n total : Int} (hu : 0 < u) (hn : 1 ≤ n) (ht : 0 ≤ total) (c : Bool) :
    0 ≤ clearCount u n total 1 c ∧ clearCount u n total 1 c ≤ n := by
  unfold clearCount
  dsimp only
  rw [if_neg (by omega : ¬ (1 : Int) < 0)]
  have hd : 0 ≤ total.tdiv u := Int.tdiv_nonneg ht (by omega)
  generalize total.tdiv u = d at hd
  by_cases h1 : d ≥ n
  · rw [if_pos h1, if_neg (by omega)]; omega
  · rw [if_neg h1]
    by_cases h2 : d = 0 ∧ c = true
    · rw [if_pos h2]; omega
    · rw [if_neg h2]; omega

theorem addAt_spec (l : List Int) (s b : Int) (h : 0 ≤ s ∧ s < l.length) :
    ∃ l', addAt l s b = some l' ∧ l'.length = l.length ∧
      ∀ j : Nat, l'[j]? = if (j : Int) = s then l[j]?.map (· + b) else l[j]? := by
  unfold addAt
  rw [if_pos h]
  refine ⟨_, rfl, by simp, ?_⟩
  intro j
  rw [List.getElem?_modify]
  by_cases hj : (j : Int) = s
  · have e : s.toNat = j := by omega
    simp [hj, e]
  · have e : ¬ s.toNat = j := by omega
    simp [hj, e]

/-- One report: the chart stays right. -/
theorem chart_step {u n : Int} (hun : (u = 1 ∧ n = 60) ∨ (u = 60 ∧ n = 60) ∨ (u = 3600 ∧ n = 24)) (l : List Int)
    (h : List Report) (t : Int) (r : Report) (c moved : Bool) (total : Int) (hok : ChartOk u n l h t) (ht0 : 0 ≤ r.loc)
    (hlast : h ≠ [] → 0 ≤ t ∧ t ≤ r.loc ∧ (∀ e ∈ h, e.loc ≤ t) ∧ (u ≠ 1 → c = decide (r.loc / u % n ≠ t / u % n)) ∧
      total = r.loc - t ∧ moved = decide (r.loc ≠ t) ∧ (r.loc - t < u ∨ n * u ≤ r.loc - t ∨ t % u ≤ r.loc % u))
    (htot : moved = true → 0 ≤ total) :
    ∃ l', chart u n l (r.loc / u % n) c moved total r.bytes = some l' ∧ ChartOk u n l' (h ++ [r]) r.loc := by
  have hn : n = 60 ∨ n = 24 := by omega
  have hu : 0 < u := by omega
  have hs : 0 ≤ r.loc / u % n ∧ r.loc / u % n < n := by
    constructor
    · exact Int.emod_nonneg _ (by omega)
    · exact Int.emod_lt_of_pos _ (by omega)
  obtain ⟨hl, hj⟩ := hok
  -- clearing
  have hclear : ∃ l1, (if moved = true then
      clearLoop n (r.loc / u % n) (if total ≥ 0 then 1 else -1)
        (clearCount u n total.natAbs (if total ≥ 0 then 1 else -1) c).toNat 0 l else some l) = some l1 ∧
      (l1.length : Int) = n ∧ ∀ j : Nat, (j : Int) < n → l1[j]? = some (slotSum u n h r.loc j) := by
    cases hm : moved with
    | false =>
      refine ⟨l, by simp, hl, ?_⟩
      intro j hjn
      rw [hj j hjn]
      by_cases hh : h = []
      · subst hh; rfl
      · obtain ⟨_, _, _, _, _, h5, _⟩ := hlast hh
        rw [hm] at h5
        have : r.loc = t := by simpa using h5.symm
        rw [this]
    | true =>
      have h0 := htot hm
      simp only [if_true, if_pos h0]
      have hna : ((total.natAbs : Nat) : Int) = total := by omega
      rw [hna]
      have hr := clearCount_range (u := u) (n := n) hu (by omega) h0 c
      obtain ⟨l1, e, hl1, hj1⟩ := clearLoop_spec hn (r.loc / u % n) hs (clearCount u n total 1 c).toNat 0 l hl (by omega)
        (by omega)
      refine ⟨l1, e, hl1, ?_⟩
      intro j hjn
      rw [hj1 j hjn, hj j hjn]
      by_cases hh : h = []
      · subst hh; simp [slotSum, bytesOf]
      · obtain ⟨a1, a2, a3, a4, a5, a6, a7⟩ := hlast hh
        have hlt : t < r.loc := by
          rw [hm] at a6
          have : r.loc ≠ t := by simpa using a6.symm
          omega
        have hex := clearCount_exact hun a1 hlt c a4 a7
        rw [← a5] at hex
        rw [hex]
        rw [hex] at hr
        have hq : t / u ≤ r.loc / u := Int.ediv_le_ediv hu (by omega)
        by_cases hcl : 0 ≤ (r.loc / u % n - ↑j) % n ∧ (r.loc / u % n - ↑j) % n < 0 + ((min n (r.loc / u - t / u)).toNat : Int)
        · rw [if_pos hcl]
          congr 1
          symm
          unfold slotSum
          apply bytesOf_false
          intro e he
          have hqe : e.loc / u ≤ t / u := Int.ediv_le_ediv hu (a3 e he)
          generalize e.loc / u = qe at *
          generalize r.loc / u = q' at *
          generalize t / u = q at *
          simp only [decide_eq_false_iff_not]
          rcases hn with rfl | rfl <;> omega
        · rw [if_neg hcl]
          congr 1
          unfold slotSum
          apply bytesOf_congr
          intro e he
          have hqe : e.loc / u ≤ t / u := Int.ediv_le_ediv hu (a3 e he)
          generalize e.loc / u = qe at *
          generalize r.loc / u = q' at *
          generalize t / u = q at *
          rw [decide_eq_decide]
          rcases hn with rfl | rfl <;> omega
  obtain ⟨l1, e1, hl1, hj1⟩ := hclear
  obtain ⟨l', e2, hl2, hj2⟩ := addAt_spec l1 (r.loc / u % n) r.bytes (by omega)
  refine ⟨l', ?_, by omega, ?_⟩
  · unfold chart
    simp only [e1, Option.bind_some, e2]
  · intro j hjn
    rw [hj2 j, hj1 j hjn]
    unfold slotSum
    rw [bytesOf_snoc]
    have hd : (decide (r.loc / u % n = ↑j ∧ r.loc / u - n < r.loc / u)) = decide ((j : Int) = r.loc / u % n) := by
      rw [decide_eq_decide]; omega
    rw [hd]
    by_cases hx : (j : Int) = r.loc / u % n
    · rw [if_pos hx]; simp [hx]
    · rw [if_neg hx]; simp [hx]

theorem clearLoop_total {n : Int} (slot sign : Int) (hs : 0 ≤ slot ∧ slot < n) (hsign : sign = 1 ∨ sign = -1) (k : Nat) (i : Int)
    (l : List Int) (hl : (l.length : Int) = n) (hi : 0 ≤ i) (hk : i + k ≤ n) :
    ∃ l', clearLoop n slot sign k i l = some l' ∧ (l'.length : Int) = n := by
  induction k generalizing i l with
  | zero => exact ⟨l, rfl, hl⟩
  | succ k ih =>
    simp only [clearLoop]
    have hm : i * sign = i ∨ i * sign = -i := by rcases hsign with rfl | rfl <;> omega
    generalize i * sign = m at hm
    have hb : 0 ≤ (if (if slot - m < 0 then slot - m + n else slot - m) ≥ n then
        (if slot - m < 0 then slot - m + n else slot - m) - n else (if slot - m < 0 then slot - m + n else slot - m)) ∧
        (if (if slot - m < 0 then slot - m + n else slot - m) ≥ n then
        (if slot - m < 0 then slot - m + n else slot - m) - n else (if slot - m < 0 then slot - m + n else slot - m)) < (l.length : Int) := by
      by_cases h : slot - m < 0
      · simp only [if_pos h]
        by_cases h2 : slot - m + n ≥ n
        · rw [if_pos h2]; omega
        · rw [if_neg h2]; omega
      · simp only [if_neg h]
        by_cases h2 : slot - m ≥ n
        · rw [if_pos h2]; omega
        · rw [if_neg h2]; omega
    rw [if_pos hb]
    exact ih (i + 1) _ (by simpa using hl) (by omega) (by omega)

theorem clearCount_range' {u n total sign : Int} (hu : 0 < u) (hn : 1 ≤ n) (ht : 0 ≤ total) (c : Bool) :
    0 ≤ clearCount u n total sign c ∧ clearCount u n total sign c ≤ n := by
  unfold clearCount
  have hd : 0 ≤ total.tdiv u := Int.tdiv_nonneg ht (by omega)
  generalize total.tdiv u = d at hd
  dsimp only
  have hd' : 0 ≤ (if sign < 0 then d + 1 else d) := by
    by_cases h : sign < 0
    · rw [if_pos h]; omega
    · rw [if_neg h]; omega
  generalize (if sign < 0 then d + 1 else d) = d' at hd'
  by_cases h1 : d' ≥ n
  · rw [if_pos h1, if_neg (by omega)]; omega
  · rw [if_neg h1]
    by_cases h2 : d' = 0 ∧ c = true
    · rw [if_pos h2]; omega
    · rw [if_neg h2]; omega

theorem chart_total {u n : Int} (hu : 0 < u) (l : List Int) (slot : Int) (c moved : Bool) (total b : Int)
    (hl : (l.length : Int) = n) (hs : 0 ≤ slot ∧ slot < n) :
    ∃ l', chart u n l slot c moved total b = some l' ∧ (l'.length : Int) = n := by
  unfold chart
  have hsg : (if total ≥ 0 then (1 : Int) else -1) = 1 ∨ (if total ≥ 0 then (1 : Int) else -1) = -1 := by
    by_cases h : total ≥ 0
    · rw [if_pos h]; exact .inl rfl
    · rw [if_neg h]; exact .inr rfl
  dsimp only
  generalize (if total ≥ 0 then (1 : Int) else -1) = sign at hsg
  have h1 : ∃ l1, (if moved = true then clearLoop n slot sign (clearCount u n total.natAbs sign c).toNat 0 l else some l) = some l1 ∧
      (l1.length : Int) = n := by
    cases moved with
    | false => exact ⟨l, rfl, hl⟩
    | true =>
      have hr := clearCount_range' (u := u) (n := n) (total := total.natAbs) (sign := sign) hu (by omega) (by omega) c
      exact clearLoop_total slot sign hs hsg _ 0 l hl (by omega) (by omega)
  obtain ⟨l1, e1, hl1⟩ := h1
  obtain ⟨l2, e2, hl2, _⟩ := addAt_spec l1 slot b (by omega)
  refine ⟨l2, ?_, by omega⟩
  rw [e1]
  exact e2

/-- The days of a volume after one report at the local time `loc`. -/
def firstAfter (v : Volume) (loc : Int) : Int :=
  if v.firstDay = 0 ∨ v.firstDay > loc / 86400 then loc / 86400 else v.firstDay

/-- The days which are recorded: from the last day of 2012, for twenty years. -/
def Recorded (loc : Int) : Prop := 15705 ≤ loc / 86400 ∧ loc / 86400 < 23025

instance (loc : Int) : Decidable (Recorded loc) := by unfold Recorded; infer_instance

theorem length_grow (l : List Int) (n : Int) : ((grow l n).length : Int) = max (l.length : Int) n := by
  unfold grow
  by_cases h : n > (l.length : Int)
  · rw [if_pos h]; simp; omega
  · rw [if_neg h]; omega

/-- All of one report, for times which fit into 31 bits. -/
theorem addData_spec (v : Volume) (now off b : Int) (h0 : 0 ≤ now + off) (h1 : now + off < 2 ^ 31)
    (hs : v.secs.length = 60) (hm : v.mins.length = 60) (hh : v.hours.length = 24) :
    ∃ v', addData v now off b = some v' ∧
      v'.secs.length = 60 ∧ v'.mins.length = 60 ∧ v'.hours.length = 24 ∧
      v'.total = v.total + b ∧ v'.custom = v.custom + b ∧ v'.dataTime = now ∧
      v'.minSlot = (now + off) / 60 % 60 ∧ v'.hourSlot = (now + off) / 3600 % 24 ∧
      chart 1 60 v.secs ((now + off) / 1 % 60) false (now + off != v.dataTime + off)
        (toI32 (now + off - (v.dataTime + off))) b = some v'.secs ∧
      chart 60 60 v.mins ((now + off) / 60 % 60) ((now + off) / 60 % 60 != v.minSlot) (now + off != v.dataTime + off)
        (toI32 (now + off - (v.dataTime + off))) b = some v'.mins ∧
      chart 3600 24 v.hours ((now + off) / 3600 % 24) ((now + off) / 3600 % 24 != v.hourSlot) (now + off != v.dataTime + off)
        (toI32 (now + off - (v.dataTime + off))) b = some v'.hours ∧
      (Recorded (now + off) → v'.firstDay = firstAfter v (now + off) ∧
        v'.days = (grow v.days ((now + off) / 86400 - firstAfter v (now + off) + 1)).modify
          ((now + off) / 86400 - firstAfter v (now + off)).toNat (· + b)) ∧
      (¬ Recorded (now + off) → v'.firstDay = v.firstDay ∧ v'.days = v.days) := by
  have e0 := toI32_of_nonneg h0 h1
  generalize hloc : now + off = loc at *
  have s1 : loc.tmod 60 = loc / 1 % 60 := by
    rw [Int.tmod_eq_emod_of_nonneg h0, Int.ediv_one]
  have s2 : (loc.tdiv 60).tmod 60 = loc / 60 % 60 := by
    rw [Int.tdiv_eq_ediv_of_nonneg h0, Int.tmod_eq_emod_of_nonneg (by omega)]
  have s3 : (loc.tmod 86400).tdiv 3600 = loc / 3600 % 24 := by
    rw [Int.tmod_eq_emod_of_nonneg h0, Int.tdiv_eq_ediv_of_nonneg (by omega)]; omega
  have s4 : loc.tdiv 86400 = loc / 86400 := Int.tdiv_eq_ediv_of_nonneg h0
  obtain ⟨a, ea, la⟩ := chart_total (u := 1) (n := 60) (by omega) v.secs (loc / 1 % 60) false (loc != v.dataTime + off)
    (toI32 (loc - (v.dataTime + off))) b (by omega) (by omega)
  obtain ⟨m, em, lm⟩ := chart_total (u := 60) (n := 60) (by omega) v.mins (loc / 60 % 60) (loc / 60 % 60 != v.minSlot)
    (loc != v.dataTime + off) (toI32 (loc - (v.dataTime + off))) b (by omega) (by omega)
  obtain ⟨g, eg, lg⟩ := chart_total (u := 3600) (n := 24) (by omega) v.hours (loc / 3600 % 24) (loc / 3600 % 24 != v.hourSlot)
    (loc != v.dataTime + off) (toI32 (loc - (v.dataTime + off))) b (by omega) (by omega)
  unfold addData calcSlots
  dsimp only
  rw [hloc, e0, s1, s2, s3, s4]
  by_cases hr : Recorded loc
  · have hc : 0 ≤ loc / 86400 - daysUpTo2013 + 1 ∧ loc / 86400 - daysUpTo2013 + 1 < daysInTwentyYears := by
      simp only [Recorded] at hr; simp only [daysUpTo2013, daysInTwentyYears]; omega
    rw [if_pos hc]
    dsimp only
    rw [ea, em, eg]
    simp only [Option.bind_some]
    have hf : (if v.firstDay = 0 ∨ v.firstDay > loc / 86400 then loc / 86400 else v.firstDay) = firstAfter v loc := rfl
    rw [hf]
    have hf0 : 0 ≤ loc / 86400 - firstAfter v loc := by
      unfold firstAfter
      by_cases hx : v.firstDay = 0 ∨ v.firstDay > loc / 86400
      · rw [if_pos hx]; omega
      · rw [if_neg hx]; omega
    rw [if_pos hf0]
    have hlen := length_grow v.days (loc / 86400 - firstAfter v loc + 1)
    unfold addAt
    rw [if_pos (by omega)]
    refine ⟨_, rfl, ?_⟩
    refine ⟨by dsimp only; omega, by dsimp only; omega, by dsimp only; omega, rfl, rfl, rfl, rfl, rfl, rfl, rfl, rfl, ?_, ?_⟩
    · intro _; exact ⟨rfl, rfl⟩
    · intro x; exact absurd hr x
  · have hc : ¬ (0 ≤ loc / 86400 - daysUpTo2013 + 1 ∧ loc / 86400 - daysUpTo2013 + 1 < daysInTwentyYears) := by
      simp only [Recorded] at hr; simp only [daysUpTo2013, daysInTwentyYears]; omega
    rw [if_neg hc]
    dsimp only
    rw [ea, em, eg]
    simp only [Option.bind_some]
    rw [if_neg (by omega)]
    simp only [Option.bind_some]
    refine ⟨_, rfl, ?_⟩
    refine ⟨by dsimp only; omega, by dsimp only; omega, by dsimp only; omega, rfl, rfl, rfl, rfl, rfl, rfl, rfl, rfl, ?_, ?_⟩
    · intro x; exact absurd x hr
    · intro _; exact ⟨rfl, rfl⟩

theorem run_snoc (v : Volume) (h : List Report) (r : Report) :
    run v (h ++ [r]) = (run v h).bind (fun v => addData v r.now r.off r.bytes) := by
  simp [run, List.foldlM_append]

theorem snoc_induction {α : Type} {P : List α → Prop} (nil : P []) (snoc : ∀ l a, P l → P (l ++ [a])) (l : List α) : P l := by
  rw [← List.reverse_reverse l]
  induction l.reverse with
  | nil => simpa using nil
  | cons a m ih => rw [List.reverse_cons]; exact snoc _ _ ih

theorem sum_modify (l : List Int) (i : Nat) (b : Int) (h : i < l.length) : (l.modify i (· + b)).sum = l.sum + b := by
  induction l generalizing i with
  | nil => simp at h
  | cons x l ih =>
    cases i with
    | zero => simp; omega
    | succ i => simp at h; simp [ih i h]; omega

theorem sum_grow (l : List Int) (n : Int) : (grow l n).sum = l.sum := by
  unfold grow
  by_cases h : n > (l.length : Int)
  · rw [if_pos h]
    have : ∀ k : Nat, (List.replicate k (0 : Int)).sum = 0 := by
      intro k; induction k with
      | zero => rfl
      | succ k ih => simp [List.replicate_succ, ih]
    simp [this]
  · rw [if_neg h]

theorem getD_grow (l : List Int) (n : Int) (j : Nat) : (grow l n).getD j 0 = l.getD j 0 := by
  unfold grow
  by_cases h : n > (l.length : Int)
  · rw [if_pos h]
    simp only [List.getD_eq_getElem?_getD]
    by_cases hj : j < l.length
    · rw [List.getElem?_append_left hj]
    · rw [List.getElem?_append_right (by omega), List.getElem?_eq_none (by omega : l.length ≤ j)]
      by_cases hk : j - l.length < n.toNat - l.length
      · rw [List.getElem?_replicate_of_lt hk]; rfl
      · rw [List.getElem?_eq_none (by simp; omega)]
  · rw [if_neg h]

theorem getD_modify (l : List Int) (i j : Nat) (b : Int) (hi : i < l.length) :
    (l.modify i (· + b)).getD j 0 = l.getD j 0 + if i = j then b else 0 := by
  simp only [List.getD_eq_getElem?_getD, List.getElem?_modify]
  by_cases h : i = j
  · subst h
    simp [List.getElem?_eq_getElem hi]
  · simp [h]

/-! ### C27 -/

/-- The volume recorded for the day `d` (StatMeter.cpp:493-497, also used by the API method "servervolumes"). -/
def dayVolume (v : Volume) (d : Int) : Int := if d < v.firstDay then 0 else v.days.getD (d - v.firstDay).toNat 0

/-- Every report is at a time the program can handle. -/
def InRange (h : List Report) : Prop := ∀ r ∈ h, 0 ≤ r.loc ∧ r.loc < 2 ^ 31

/-- No report makes an access outside of the charts, whatever the clock does, and the total is the sum of all
bytes. -/
theorem total_volume (h : List Report) (hr : InRange h) :
    ∃ v, run .init h = some v ∧ v.secs.length = 60 ∧ v.mins.length = 60 ∧ v.hours.length = 24 ∧
      v.total = (h.map (·.bytes)).sum ∧ v.custom = (h.map (·.bytes)).sum := by
  induction h using snoc_induction with
  | nil => exact ⟨.init, rfl, rfl, rfl, rfl, rfl, rfl⟩
  | snoc h r ih =>
    obtain ⟨v, e, h1, h2, h3, h4, h5⟩ := ih (fun x hx => hr x (by simp [hx]))
    obtain ⟨hr1, hr2⟩ := hr r (by simp)
    obtain ⟨v', e', a1, a2, a3, a4, a5, _⟩ := addData_spec v r.now r.off r.bytes hr1 hr2 h1 h2 h3
    refine ⟨v', ?_, a1, a2, a3, ?_, ?_⟩
    · rw [run_snoc, e]; exact e'
    · rw [a4, h4]; simp
    · rw [a5, h5]; simp

theorem days_invariant (h : List Report) (hr : InRange h) (hrec : ∀ r ∈ h, Recorded r.loc)
    (hfirst : ∀ r ∈ h, ∀ f, h.head? = some f → f.loc / 86400 ≤ r.loc / 86400) :
    ∃ v, run .init h = some v ∧ v.secs.length = 60 ∧ v.mins.length = 60 ∧ v.hours.length = 24 ∧
      (∀ f, h.head? = some f → v.firstDay = f.loc / 86400) ∧ (h = [] → v.days = [] ∧ v.firstDay = 0) ∧
      (∀ d, dayVolume v d = daySum h d) ∧ v.days.sum = (h.map (·.bytes)).sum := by
  induction h using snoc_induction with
  | nil =>
    refine ⟨.init, rfl, rfl, rfl, rfl, by simp, fun _ => ⟨rfl, rfl⟩, ?_, rfl⟩
    intro d
    simp [dayVolume, Volume.init, daySum, bytesOf]
  | snoc h r ih =>
    obtain ⟨v, e, h1, h2, h3, h4, h5, h6, h7⟩ := ih (fun x hx => hr x (by simp [hx])) (fun x hx => hrec x (by simp [hx]))
      (fun x hx f hf => hfirst x (by simp [hx]) f (by simp [hf]))
    obtain ⟨hr1, hr2⟩ := hr r (by simp)
    have hrr := hrec r (by simp)
    obtain ⟨v', e', a1, a2, a3, _, _, _, _, _, _, _, _, hd, _⟩ := addData_spec v r.now r.off r.bytes hr1 hr2 h1 h2 h3
    obtain ⟨hd1, hd2⟩ := hd hrr
    change v'.firstDay = firstAfter v r.loc at hd1
    change v'.days = (grow v.days (r.loc / 86400 - firstAfter v r.loc + 1)).modify
        (r.loc / 86400 - firstAfter v r.loc).toNat (· + r.bytes) at hd2
    -- the first day
    have hfa : firstAfter v r.loc ≤ r.loc / 86400 ∧ (h = [] → firstAfter v r.loc = r.loc / 86400) ∧
        (∀ f, h.head? = some f → firstAfter v r.loc = f.loc / 86400) := by
      cases h with
      | nil =>
        have := (h5 rfl).2
        unfold firstAfter
        rw [if_pos (.inl this)]
        simp
      | cons f h =>
        have hv := h4 f rfl
        have hle := hfirst r (by simp) f (by simp)
        have hff := hrec f (by simp)
        unfold firstAfter
        rw [if_neg (by unfold Recorded at hff; omega), hv]
        simp [hle]
    have hlen := length_grow v.days (r.loc / 86400 - firstAfter v r.loc + 1)
    have hidx : (r.loc / 86400 - firstAfter v r.loc).toNat < (grow v.days (r.loc / 86400 - firstAfter v r.loc + 1)).length := by
      omega
    refine ⟨v', ?_, a1, a2, a3, ?_, by simp, ?_, ?_⟩
    · rw [run_snoc, e]; exact e'
    · intro f hf
      rw [hd1]
      cases h with
      | nil => simp at hf; subst hf; exact hfa.2.1 rfl
      | cons g h => simp at hf; subst hf; exact hfa.2.2 g rfl
    · intro d
      have hold : (if d < firstAfter v r.loc then 0 else v.days.getD (d - firstAfter v r.loc).toNat 0) = daySum h d := by
        cases h with
        | nil => rw [(h5 rfl).1]; simp [daySum, bytesOf]
        | cons f h =>
          rw [hfa.2.2 f rfl, ← h4 f rfl]
          exact h6 d
      have hds : daySum (h ++ [r]) d = daySum h d + if r.loc / 86400 = d then r.bytes else 0 := by
        unfold daySum
        rw [bytesOf_snoc]
        simp only [decide_eq_true_eq]
      rw [hds, ← hold]
      unfold dayVolume
      rw [hd1, hd2]
      by_cases hlt : d < firstAfter v r.loc
      · rw [if_pos hlt, if_pos hlt, if_neg (by omega)]; rfl
      · rw [if_neg hlt, if_neg hlt, getD_modify _ _ _ _ hidx, getD_grow]
        congr 1
        by_cases hx : r.loc / 86400 = d
        · rw [if_pos hx, if_pos (by rw [hx])]
        · rw [if_neg hx, if_neg (by omega)]
    · rw [hd2, sum_modify _ _ _ hidx, sum_grow, h7]; simp

/-- C27: as long as no report is before the day of the first one and the days are recorded, the volume of each
day is the sum of the reports of that day, and the days together are the total. -/
theorem day_volumes_partial (h : List Report) (hr : InRange h) (hrec : ∀ r ∈ h, Recorded r.loc)
    (hfirst : ∀ r ∈ h, ∀ f, h.head? = some f → f.loc / 86400 ≤ r.loc / 86400) :
    ∃ v, run .init h = some v ∧ (∀ d, dayVolume v d = daySum h d) ∧ v.days.sum = (h.map (·.bytes)).sum ∧
      v.total = v.days.sum := by
  obtain ⟨v, e, _, _, _, _, _, h6, h7⟩ := days_invariant h hr hrec hfirst
  obtain ⟨v2, e2, _, _, _, h4, _⟩ := total_volume h hr
  have : v = v2 := by rw [e] at e2; exact Option.some.inj e2
  subst this
  exact ⟨v, e, h6, h7, by rw [h4, h7]⟩

/-- Three reports, two on 1 January 2020 and one on 3 January. -/
example : InRange [⟨1577880000, 0, 100⟩, ⟨1577880010, 3600, 20⟩, ⟨1578052800, 3600, 5⟩] ∧
    (∀ r ∈ [(⟨1577880000, 0, 100⟩ : Report), ⟨1577880010, 3600, 20⟩, ⟨1578052800, 3600, 5⟩], Recorded r.loc) := by
  unfold InRange
  decide
example : (run .init [⟨1577880000, 0, 100⟩, ⟨1577880010, 3600, 20⟩, ⟨1578052800, 3600, 5⟩]).map (·.days) =
    some [120, 0, 5] := by decide +kernel

/-- Violation of C27: from 15 January 2033 on (day 23025) no day is recorded, while the total goes on. -/
theorem days_end_in_2033 (v : Volume) (r : Report) (h0 : 0 ≤ r.loc) (h1 : r.loc < 2 ^ 31) (hd : 23025 ≤ r.loc / 86400)
    (hs : v.secs.length = 60) (hm : v.mins.length = 60) (hh : v.hours.length = 24) :
    ∃ v', addData v r.now r.off r.bytes = some v' ∧ v'.days = v.days ∧ v'.firstDay = v.firstDay ∧
      v'.total = v.total + r.bytes := by
  obtain ⟨v', e, _, _, _, a4, _, _, _, _, _, _, _, _, hn⟩ := addData_spec v r.now r.off r.bytes h0 h1 hs hm hh
  obtain ⟨x, y⟩ := hn (by intro c; have := c.2; unfold Report.loc at hd; omega)
  exact ⟨v', e, y, x, a4⟩

/-- 2033-01-15 00:00:00 UTC. -/
example : (run .init [⟨1989360000, 0, 100⟩]).map (fun v => (v.days, v.total)) = some ([], 100) := by decide +kernel
example : (run .init [⟨1989359999, 0, 100⟩]).map (fun v => (v.days, v.total)) = some ([100], 100) := by decide +kernel

/-- Violation of C27: after a report from a day before the first day the whole record is shifted: the volumes of
the first day are shown for the new first day, those of the next day for the day after it, and so on. -/
theorem early_report_shifts_days (v : Volume) (r : Report) (h0 : 0 ≤ r.loc) (h1 : r.loc < 2 ^ 31) (hrec : Recorded r.loc)
    (hb : r.loc / 86400 < v.firstDay) (hs : v.secs.length = 60) (hm : v.mins.length = 60) (hh : v.hours.length = 24) :
    ∃ v', addData v r.now r.off r.bytes = some v' ∧
      ∀ k : Nat, dayVolume v' (r.loc / 86400 + k) = dayVolume v (v.firstDay + k) + if k = 0 then r.bytes else 0 := by
  obtain ⟨v', e, _, _, _, _, _, _, _, _, _, _, _, hd, _⟩ := addData_spec v r.now r.off r.bytes h0 h1 hs hm hh
  obtain ⟨x, y⟩ := hd hrec
  refine ⟨v', e, ?_⟩
  intro k
  change v'.firstDay = firstAfter v r.loc at x
  change v'.days = (grow v.days (r.loc / 86400 - firstAfter v r.loc + 1)).modify
          (r.loc / 86400 - firstAfter v r.loc).toNat (· + r.bytes) at y
  have hf : firstAfter v r.loc = r.loc / 86400 := by
    unfold firstAfter; rw [if_pos (.inr hb)]
  have hlen := length_grow v.days (r.loc / 86400 - firstAfter v r.loc + 1)
  unfold dayVolume
  rw [x, y, if_neg (by omega), if_neg (by omega), getD_modify _ _ _ _ (by omega), getD_grow, hf]
  have e1 : (r.loc / 86400 + ↑k - r.loc / 86400).toNat = k := by omega
  have e2 : (v.firstDay + ↑k - v.firstDay).toNat = k := by omega
  have e3 : (r.loc / 86400 - r.loc / 86400).toNat = 0 := by omega
  rw [e1, e2, e3]
  congr 1
  by_cases hk : k = 0
  · rw [if_pos hk, if_pos hk.symm]
  · rw [if_neg hk, if_neg (fun h => hk h.symm)]

/-- 3 January 2020: 5 bytes. Then the clock shows 1 January: now the 5 bytes belong to this day. -/
example : (run .init [⟨1578052800, 0, 5⟩, ⟨1577880000, 0, 0⟩]).map (fun v => (v.firstDay, v.days)) = some (18262, [5]) ∧
    daySum [⟨1578052800, 0, 5⟩, ⟨1577880000, 0, 0⟩] 18262 = 0 := by decide +kernel

/-- From 2038 on the slots are negative: the first report accesses memory outside of the charts. -/
example : run .init [⟨2147483648, 0, 1⟩] = none := by decide +kernel

/-- A time after 19 January 2038 3:14:07 makes a negative slot number, the access is outside of the chart (unless the second
in the wrapped minute is 0). -/
theorem after_2038_out_of_bounds (v : Volume) (now off b : Int) (h0 : 2 ^ 31 ≤ now + off) (h1 : now + off < 2 ^ 32)
    (hs : (now + off - 2 ^ 32) % 60 ≠ 0) : addData v now off b = none := by
  have e : toI32 (now + off) = now + off - 2 ^ 32 := by
    unfold toI32; rw [Int.bmod_def]; omega
  have hneg : (now + off - 2 ^ 32).tmod 60 < 0 := by
    generalize hx : now + off - 2 ^ 32 = x at *
    have hx0 : x < 0 := by omega
    rw [Int.tmod_eq_emod]
    have : ¬ (0 ≤ x ∨ (60 : Int) ∣ x) := by
      intro h; rcases h with h | h
      · omega
      · exact hs (Int.emod_eq_zero_of_dvd h)
    rw [if_neg this]
    have : x % 60 < 60 := Int.emod_lt_of_pos _ (by omega)
    simp; omega
  have hsl : (calcSlots v (now + off)).secSlot < 0 := by
    unfold calcSlots
    dsimp only
    rw [e]
    by_cases hc : 0 ≤ (now + off - 2 ^ 32).tdiv 86400 - daysUpTo2013 + 1 ∧ (now + off - 2 ^ 32).tdiv 86400 - daysUpTo2013 + 1 < daysInTwentyYears
    · rw [if_pos hc]; exact hneg
    · rw [if_neg hc]; exact hneg
  have hadd : ∀ l c m t, chart 1 60 l (calcSlots v (now + off)).secSlot c m t b = none := by
    intro l c m t
    unfold chart
    dsimp only
    generalize (if m = true then _ else some l) = o
    cases o with
    | none => rfl
    | some l1 =>
      simp only [Option.bind_some]
      unfold addAt
      rw [if_neg (by omega)]
  unfold addData
  dsimp only
  rw [hadd]
  rfl

/-! ### C28 -/

/-- The local time of the last report. -/
def lastTime (h : List Report) : Int := (h.getLast?.map (·.loc)).getD 0

theorem goodGaps_snoc {u n : Int} (h : List Report) (r : Report) (hg : GoodGaps u n (h ++ [r])) :
    GoodGaps u n h ∧ (h ≠ [] → r.loc - lastTime h < u ∨ n * u ≤ r.loc - lastTime h ∨ lastTime h % u ≤ r.loc % u) := by
  induction h with
  | nil => simp [GoodGaps]
  | cons a h ih =>
    cases h with
    | nil =>
      simp only [List.cons_append, List.nil_append, GoodGaps] at hg
      simpa [GoodGaps, lastTime] using hg.1
    | cons b h =>
      simp only [List.cons_append, GoodGaps] at hg
      obtain ⟨i1, i2⟩ := ih hg.2
      refine ⟨⟨hg.1, i1⟩, ?_⟩
      intro _
      have := i2 (by simp)
      simpa [lastTime] using this

theorem steady_snoc {off : Int} (h : List Report) (r : Report) (hs : Steady off (h ++ [r])) :
    Steady off h ∧ r.off = off ∧ 0 ≤ r.now ∧ r.now < 2 ^ 31 ∧ 0 ≤ r.loc ∧ r.loc < 2 ^ 31 ∧ (∀ e ∈ h, e.loc ≤ r.loc) := by
  obtain ⟨h1, h2⟩ := hs
  rw [List.pairwise_append] at h2
  refine ⟨⟨fun x hx => h1 x (by simp [hx]), h2.1⟩, ?_⟩
  obtain ⟨a, b, c, d, e⟩ := h1 r (by simp)
  exact ⟨a, b, c, d, e, fun x hx => h2.2.2 x hx r (by simp)⟩

theorem lastTime_mem {h : List Report} (hne : h ≠ []) : ∃ r ∈ h, r.loc = lastTime h := by
  refine ⟨h.getLast hne, List.getLast_mem hne, ?_⟩
  simp [lastTime, List.getLast?_eq_some_getLast hne]

theorem le_lastTime {off : Int} {h : List Report} (hs : Steady off h) : ∀ e ∈ h, e.loc ≤ lastTime h := by
  induction h using snoc_induction with
  | nil => simp
  | snoc h r _ =>
    obtain ⟨_, _, _, _, _, _, hle⟩ := steady_snoc h r hs
    intro e he
    have : lastTime (h ++ [r]) = r.loc := by simp [lastTime]
    rw [this]
    rcases List.mem_append.1 he with x | x
    · exact hle e x
    · simp at x; rw [x]; omega

theorem charts_invariant (off : Int) (h : List Report) (hs : Steady off h) :
    ∃ v, run .init h = some v ∧ v.secs.length = 60 ∧ v.mins.length = 60 ∧ v.hours.length = 24 ∧
      (h = [] → v.dataTime = 0) ∧
      (h ≠ [] → v.dataTime + off = lastTime h ∧ v.minSlot = lastTime h / 60 % 60 ∧ v.hourSlot = lastTime h / 3600 % 24) ∧
      ChartOk 1 60 v.secs h (lastTime h) ∧ (GoodGaps 60 60 h → ChartOk 60 60 v.mins h (lastTime h)) ∧
      (GoodGaps 3600 24 h → ChartOk 3600 24 v.hours h (lastTime h)) := by
  induction h using snoc_induction with
  | nil =>
    refine ⟨.init, rfl, rfl, rfl, rfl, fun _ => rfl, fun x => absurd rfl x, ⟨rfl, ?_⟩, fun _ => ⟨rfl, ?_⟩, fun _ => ⟨rfl, ?_⟩⟩ <;>
    · intro j hj
      have hz : ∀ u n t k, slotSum u n [] t k = 0 := fun _ _ _ _ => rfl
      rw [hz]
      exact List.getElem?_replicate_of_lt (by omega)
  | snoc h r ih =>
    obtain ⟨s0, s1, s2, s3, s4, s5, s6⟩ := steady_snoc h r hs
    obtain ⟨v, e, h1, h2, h3, hempty, h4, h5, h6, h7⟩ := ih s0
    obtain ⟨v', e', a1, a2, a3, a4, a5, a6, a7, a8, c1, c2, c3, _, _⟩ := addData_spec v r.now r.off r.bytes s4 s5 h1 h2 h3
    have hl : lastTime (h ++ [r]) = r.loc := by simp [lastTime]
    have hloc : r.now + off = r.loc := by rw [← s1]; rfl
    rw [s1, hloc] at c1 c2 c3
    rw [s1, hloc] at a7 a8
    have hlast : h ≠ [] → 0 ≤ lastTime h ∧ lastTime h ≤ r.loc ∧ v.dataTime + off = lastTime h := by
      intro hne
      obtain ⟨x, hx, ex⟩ := lastTime_mem hne
      have := s6 x hx
      have := (s0.1 x hx).2.2.2.1
      exact ⟨by omega, by omega, (h4 hne).1⟩
    have htot : 0 ≤ toI32 (r.loc - (v.dataTime + off)) := by
      by_cases hne : h = []
      · rw [hempty hne, show r.loc - (0 + off) = r.now by omega, toI32_of_nonneg s2 s3]; exact s2
      · have := hlast hne
        rw [toI32_of_nonneg (by omega) (by omega)]; omega
    have step : ∀ (u n : Int) (hun : (u = 1 ∧ n = 60) ∨ (u = 60 ∧ n = 60) ∨ (u = 3600 ∧ n = 24)) (l l' : List Int) (c : Bool)
        (hok : ChartOk u n l h (lastTime h)) (hc : h ≠ [] → u ≠ 1 → c = decide (r.loc / u % n ≠ lastTime h / u % n))
        (hg : h ≠ [] → r.loc - lastTime h < u ∨ n * u ≤ r.loc - lastTime h ∨ lastTime h % u ≤ r.loc % u)
        (he : chart u n l (r.loc / u % n) c (r.loc != v.dataTime + off) (toI32 (r.loc - (v.dataTime + off))) r.bytes = some l'),
        ChartOk u n l' (h ++ [r]) r.loc := by
      intro u n hun l l' c hok hc hg he
      obtain ⟨l'', e2, hok'⟩ := chart_step hun l h (lastTime h) r c (r.loc != v.dataTime + off) (toI32 (r.loc - (v.dataTime + off)))
        hok s4 (by
          intro hne
          obtain ⟨x1, x2, x3⟩ := hlast hne
          refine ⟨x1, x2, le_lastTime s0, hc hne, ?_, ?_, hg hne⟩
          · rw [x3, toI32_of_nonneg (by omega) (by omega)]
          · rw [x3]; by_cases hx : r.loc = lastTime h <;> simp [hx]) (fun _ => htot)
      rw [he] at e2
      rw [Option.some.inj e2]
      exact hok'
    refine ⟨v', ?_, a1, a2, a3, by simp, ?_, ?_, ?_, ?_⟩
    · rw [run_snoc, e]; exact e'
    · intro _
      rw [hl]
      exact ⟨by rw [a6]; exact hloc, a7, a8⟩
    · rw [hl]
      refine step 1 60 (by omega) _ _ _ h5 (fun _ x => absurd rfl x) ?_ c1
      intro hne
      right; right; omega
    · intro hg
      rw [hl]
      obtain ⟨g1, g2⟩ := goodGaps_snoc h r hg
      refine step 60 60 (by omega) _ _ _ (h6 g1) ?_ g2 c2
      intro hne _
      rw [(h4 hne).2.1]
      by_cases hx : r.loc / 60 % 60 = lastTime h / 60 % 60 <;> simp [hx]
    · intro hg
      rw [hl]
      obtain ⟨g1, g2⟩ := goodGaps_snoc h r hg
      refine step 3600 24 (by omega) _ _ _ (h7 g1) ?_ g2 c3
      intro hne _
      rw [(h4 hne).2.2]
      by_cases hx : r.loc / 3600 % 24 = lastTime h / 3600 % 24 <;> simp [hx]

/-- C28 for seconds: slot `j` shows exactly the bytes of the last second with this number, among the last 60. -/
theorem seconds_chart_exact (off : Int) (h : List Report) (hs : Steady off h) :
    ∃ v, run .init h = some v ∧ ∀ j : Nat, j < 60 → v.secs[j]? = some (slotSum 1 60 h (lastTime h) j) := by
  obtain ⟨v, e, _, _, _, _, _, h5, _⟩ := charts_invariant off h hs
  exact ⟨v, e, fun j hj => h5.2 j (by omega)⟩

/-- C28 for minutes and hours, for histories with good gaps. -/
theorem minutes_and_hours_charts_partial (off : Int) (h : List Report) (hs : Steady off h) :
    ∃ v, run .init h = some v ∧
      (GoodGaps 60 60 h → ∀ j : Nat, j < 60 → v.mins[j]? = some (slotSum 60 60 h (lastTime h) j)) ∧
      (GoodGaps 3600 24 h → ∀ j : Nat, j < 24 → v.hours[j]? = some (slotSum 3600 24 h (lastTime h) j)) := by
  obtain ⟨v, e, _, _, _, _, _, _, h6, h7⟩ := charts_invariant off h hs
  exact ⟨v, e, fun hg j hj => (h6 hg).2 j (by omega), fun hg j hj => (h7 hg).2 j (by omega)⟩

/-- A history with good gaps; the minutes 0, 1 and 61. -/
example : Steady 3600 [⟨1577880000, 3600, 7⟩, ⟨1577880030, 3600, 8⟩, ⟨1577880061, 3600, 9⟩, ⟨1577883720, 3600, 10⟩] ∧
    GoodGaps 60 60 [⟨1577880000, 3600, 7⟩, ⟨1577880030, 3600, 8⟩, ⟨1577880061, 3600, 9⟩, ⟨1577883720, 3600, 10⟩] := by
  unfold Steady
  simp only [GoodGaps]
  decide
example : (run .init [⟨1577880000, 3600, 7⟩, ⟨1577880030, 3600, 8⟩, ⟨1577880061, 3600, 9⟩, ⟨1577883720, 3600, 10⟩]).map
    (fun v => (v.mins.take 4, v.secs.take 2)) = some ([0, 0, 10, 0], [10, 0]) := by decide +kernel

/-- The step which goes wrong: if more than one unit passed, and the new report is earlier in its unit than the last
report was in its unit, the first of the units passed over is not cleared: it goes on to show the bytes of
`n` units before. -/
theorem skipped_slot_is_stale {u n t t' : Int} (hun : (u = 60 ∧ n = 60) ∨ (u = 3600 ∧ n = 24)) (l : List Int)
    (hl : (l.length : Int) = n) (hgap : u ≤ t' - t) (hcap : t' - t < (n - 1) * u) (hbad : t' % u < t % u) (c : Bool) (b : Int) :
    ∃ l', chart u n l (t' / u % n) c true (t' - t) b = some l' ∧
      ∀ j : Nat, (j : Int) = (t / u + 1) % n → l'[j]? = l[j]? := by
  have hn : n = 60 ∨ n = 24 := by omega
  have hu : 0 < u := by omega
  have hcc : clearCount u n (t' - t) 1 c = t' / u - t / u - 1 ∧ 1 ≤ t' / u - t / u - 1 ∧ t' / u - t / u < n := by
    unfold clearCount
    dsimp only
    rw [if_neg (by omega : ¬ (1 : Int) < 0), Int.tdiv_eq_ediv_of_nonneg (by omega)]
    rcases hun with ⟨rfl, rfl⟩ | ⟨rfl, rfl⟩
    · rw [if_neg (by omega), if_neg (by omega)]; omega
    · rw [if_neg (by omega), if_neg (by omega)]; omega
  have hs : 0 ≤ t' / u % n ∧ t' / u % n < n := by
    constructor
    · exact Int.emod_nonneg _ (by omega)
    · exact Int.emod_lt_of_pos _ (by omega)
  obtain ⟨l1, e1, hl1, hj1⟩ := clearLoop_spec hn (t' / u % n) hs (clearCount u n (t' - t) 1 c).toNat 0 l hl (by omega) (by omega)
  obtain ⟨l2, e2, hl2, hj2⟩ := addAt_spec l1 (t' / u % n) b (by omega)
  refine ⟨l2, ?_, ?_⟩
  · unfold chart
    have : t' - t ≥ 0 := by omega
    simp only [if_true, if_pos this]
    rw [show ((t' - t).natAbs : Int) = t' - t by omega, e1]
    exact e2
  · intro j hj
    generalize t' / u = q' at *
    generalize t / u = q at *
    have hjn : (j : Int) < n := by rcases hn with rfl | rfl <;> omega
    rw [hj2, hj1 j hjn, if_neg (by rcases hn with rfl | rfl <;> omega), if_neg (by rcases hn with rfl | rfl <;> omega)]

/-- Violation of C28: 7 bytes at minute 1, then traffic at minute 60 and 91 seconds later. The chart still shows
the 7 bytes at minute 61, though they are an hour old. -/
theorem stale_minute :
    ∃ h, Steady 0 h ∧ (run .init h).map (fun v => v.mins[1]?) = some (some 7) ∧ slotSum 60 60 h (lastTime h) 1 = 0 := by
  refine ⟨[⟨1577880060, 0, 7⟩, ⟨1577883630, 0, 1⟩, ⟨1577883721, 0, 1⟩], ?_, ?_, ?_⟩
  · unfold Steady; decide
  · decide +kernel
  · decide +kernel

end Verif.Volume
