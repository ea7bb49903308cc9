import Mathlib.Data.Nat.Totient
import Mathlib.Tactic.NormNum.Prime
import Verif.RsProps
/-
What a repair computes: exactly the missing blocks, whenever it computes any; always, if the exponents of the recovery blocks follow each
other; and nothing in some cases although there are enough recovery blocks.
-/
namespace Verif.Rs
open Verif.Galois Verif.RsSpec
open Finset (range sum_range_succ sum_range_succ' sum_congr mem_range)

attribute [local irreducible] table

/-- The number of missing blocks. -/
def missingCount (present : List Bool) : Nat := (present.filter (fun p => !p)).length

theorem indices_false_length (ps : List Bool) (k : Nat) : (indices false ps k).length = missingCount ps := by
  unfold missingCount
  induction ps generalizing k with
  | nil => rfl
  | cons p ps ih => cases p <;> simp [indices, ih (k + 1)]

theorem filter_length (n : Nat) (p : Nat → Prop) [DecidablePred p] :
    ((List.range n).filter (fun l => p l)).length = ((Finset.range n).filter p).card := rfl

theorem logs_length : logs.length = 32768 := by
  have h : logs.length = Nat.totient 65535 := by
    rw [Nat.totient_eq_card_coprime]
    unfold logs
    exact filter_length 65535 (fun l => Nat.gcd 65535 l = 1)
  rw [h, show (65535 : Nat) = 3 * (5 * (17 * 257)) from rfl, Nat.totient_mul (by norm_num), Nat.totient_mul (by norm_num),
    Nat.totient_mul (by norm_num), Nat.totient_prime (by norm_num), Nat.totient_prime (by norm_num), Nat.totient_prime (by norm_num),
    Nat.totient_prime (by norm_num)]

theorem blocks_select (v : Bool) (n : Nat) (ps : List Bool) (blocks : List (List Nat)) (hb : Blocks n blocks) :
    ∀ b ∈ select v ps blocks, b.length = n ∧ ∀ w ∈ b, w < 2 ^ 32 := by
  induction ps generalizing blocks with
  | nil => intro b h; cases blocks <;> exact absurd h (by simp [select])
  | cons p ps ih =>
    cases blocks with
    | nil => intro b h; exact absurd h (by simp [select])
    | cons a blocks =>
      intro b h
      have hb2 : Blocks n blocks := fun x hx => hb x (List.mem_cons_of_mem _ hx)
      rw [select] at h
      by_cases q : p = v
      · rw [if_pos q] at h
        rcases List.mem_cons.mp h with e | e
        · rw [e]; exact hb a List.mem_cons_self
        · exact ih blocks hb2 b e
      · rw [if_neg q] at h; exact ih blocks hb2 b h

theorem column_length (blocks : List (List Nat)) (j : Nat) : (column blocks j).length = blocks.length := List.length_map _

theorem column_words (n : Nat) (blocks : List (List Nat)) (hb : Blocks n blocks) (j : Nat) : ∀ w ∈ column blocks j, w < 2 ^ 32 := by
  intro w hw
  obtain ⟨b, h, rfl⟩ := List.mem_map.mp hw
  by_cases q : j < b.length
  · exact (hb b h).2 _ (getD_mem q)
  · rw [List.getD_eq_getElem?_getD, List.getElem?_eq_none (by omega)]; decide

theorem column_getD (blocks : List (List Nat)) (j i : Nat) (hi : i < blocks.length) :
    (column blocks j).getD i 0 = (blocks.getD i []).getD j 0 := by
  unfold column
  rw [List.getD_eq_getElem?_getD, List.getElem?_map, List.getElem?_eq_getElem hi, List.getD_eq_getElem?_getD (l := blocks),
    List.getElem?_eq_getElem hi]
  rfl

theorem recovery_ok (n : Nat) (blocks : List (List Nat)) (hb : Blocks n blocks) (e : Nat) :
    (recovery n blocks e).length = n ∧ ∀ w ∈ recovery n blocks e, w < 2 ^ 32 := by
  unfold recovery
  refine ⟨by rw [List.length_map, List.length_range], fun w hw => ?_⟩
  obtain ⟨j, _, rfl⟩ := List.mem_map.mp hw
  exact (recoveryWord_ok e _ (column_words n blocks hb j)).1

theorem recovery_getD (n : Nat) (blocks : List (List Nat)) (e j : Nat) (hj : j < n) :
    (recovery n blocks e).getD j 0 = recoveryWord e (column blocks j) := by
  unfold recovery
  rw [List.getD_eq_getElem?_getD, List.getElem?_map, List.getElem?_range hj]; rfl

theorem getD_append (a b : List (List Nat)) (i : Nat) : (i < a.length → (a ++ b).getD i [] = a.getD i []) ∧
    (a ++ b).getD (a.length + i) [] = b.getD i [] := by
  constructor
  · intro h; rw [List.getD_eq_getElem?_getD, List.getD_eq_getElem?_getD, List.getElem?_append_left h]
  · rw [List.getD_eq_getElem?_getD, List.getD_eq_getElem?_getD, List.getElem?_append_right (by omega)]
    congr 2; omega

theorem map_idx_getD (l : List Nat) (f : Nat → List Nat) (c : Nat) (hc : c < l.length) : (l.map f).getD c [] = f (l.getD c 0) := by
  rw [List.getD_eq_getElem?_getD, List.getD_eq_getElem?_getD, List.getElem?_map, List.getElem?_eq_getElem hc]; rfl

/-- The exponents which are used. -/
def usedExps (present : List Bool) (packets : List (Nat × List Nat)) : List Nat :=
  (packets.take (missingCount present)).map (fun p => p.1 % 65536)

theorem repair_eq (n chunk : Nat) (ps : List Bool) (found : List (List Nat)) (packets : List (Nat × List Nat)) :
    repair n chunk ps found packets =
      if 32768 < ps.length ∨ packets.length < missingCount ps then none
      else if missingCount ps = 0 then some []
      else (compute (inputOf ps) ((usedExps ps packets).map (fun e => (true, e)))).map (fun left =>
        chunkLoop left (missingCount ps) (found ++ (packets.take (missingCount ps)).map (·.2)) n chunk n 0
          (List.replicate (missingCount ps) [])) := by
  unfold repair
  rw [setInput_eq, logs_length]
  by_cases q : ps.length ≤ 32768
  · rw [if_pos q]
    dsimp only
    rw [indices_false_length]
    by_cases q2 : packets.length < missingCount ps
    · rw [if_pos q2, if_pos (Or.inr q2)]
    · rw [if_neg q2, if_neg (show ¬ (32768 < ps.length ∨ packets.length < missingCount ps) by omega)]
      by_cases q3 : missingCount ps = 0
      · rw [if_pos q3, if_pos q3]
      · rw [if_neg q3, if_neg q3]
        have : (packets.take (missingCount ps)).map (fun p => (true, p.1 % 65536)) = (usedExps ps packets).map (fun e => (true, e)) := by
          unfold usedExps; rw [List.map_map]; rfl
        rw [this]
        show (match compute (inputOf ps) _ with | none => none | some left => _) = _
        cases compute (inputOf ps) ((usedExps ps packets).map (fun e => (true, e))) <;> rfl
  · rw [if_neg q, if_pos (Or.inl (by omega))]

theorem usedExps_length (ps : List Bool) (packets : List (Nat × List Nat)) (h : missingCount ps ≤ packets.length) :
    (usedExps ps packets).length = missingCount ps := by
  unfold usedExps; rw [List.length_map, List.length_take]; omega

theorem usedExps_getD (ps : List Bool) (packets : List (Nat × List Nat)) (r : Nat) (hr : r < missingCount ps)
    (h : missingCount ps ≤ packets.length) : (usedExps ps packets).getD r 0 = (packets.getD r (0, [])).1 % 65536 := by
  unfold usedExps
  rw [List.getD_eq_getElem?_getD, List.getElem?_map, List.getElem?_take, if_pos hr, List.getD_eq_getElem?_getD,
    List.getElem?_eq_getElem (by omega)]
  rfl

/-- If a repair computes blocks, they are exactly the missing blocks, whatever the content of the blocks, which of them are missing, which
recovery blocks are used and in which portions the blocks are processed. -/
theorem repair_exact (n chunk : Nat) (hc : 0 < chunk) (present : List Bool) (blocks : List (List Nat))
    (hl : blocks.length = present.length) (hb : Blocks n blocks) (packets : List (Nat × List Nat))
    (hp : ∀ p ∈ packets, p.1 < 65536 ∧ p.2 = recovery n blocks p.1) (out : List (List Nat))
    (h : repair n chunk present (select true present blocks) packets = some out) : out = select false present blocks := by
  rw [repair_eq] at h
  by_cases q : 32768 < present.length ∨ packets.length < missingCount present
  · rw [if_pos q] at h; exact nomatch h
  rw [if_neg q] at h
  have hsf : (select false present blocks).length = missingCount present := by
    rw [select_indices false present blocks hl, List.length_map, indices_false_length]
  by_cases q0 : missingCount present = 0
  · rw [if_pos q0] at h
    injection h with h
    rw [← h]
    exact (List.length_eq_zero_iff.mp (by omega)).symm
  rw [if_neg q0] at h
  cases hcmp : compute (inputOf present) ((usedExps present packets).map (fun e => (true, e))) with
  | none => rw [hcmp] at h; exact nomatch h
  | some left =>
    rw [hcmp] at h
    injection h with h
    have hle : missingCount present ≤ packets.length := by omega
    have hel := usedExps_length present packets hle
    have hst : (select true present blocks).length = (indices true present 0).length := by
      rw [select_indices true present blocks hl, List.length_map]
    have hut : ((packets.take (missingCount present)).map (fun p => p.2)).length = missingCount present := by
      rw [List.length_map, List.length_take]; omega
    have hub : ∀ r, r < missingCount present → ((packets.take (missingCount present)).map (fun p => p.2)).getD r [] =
        recovery n blocks ((usedExps present packets).getD r 0) := by
      intro r hr
      rw [usedExps_getD present packets r hr hle, List.getD_eq_getElem?_getD, List.getElem?_map, List.getElem?_take, if_pos hr,
        List.getD_eq_getElem?_getD, List.getElem?_eq_getElem (show r < packets.length by omega)]
      have := hp _ (List.getElem_mem (show r < packets.length by omega))
      show (packets[r]).2 = recovery n blocks ((packets[r]).1 % 65536)
      rw [this.2, Nat.mod_eq_of_lt this.1]
    have hin : ∀ b ∈ select true present blocks ++ (packets.take (missingCount present)).map (fun p => p.2),
        b.length = n ∧ ∀ w ∈ b, w < 2 ^ 32 := by
      intro b hbm
      rcases List.mem_append.mp hbm with hm | hm
      · exact blocks_select true n present blocks hb b hm
      · obtain ⟨p, hpm, rfl⟩ := List.mem_map.mp hm
        rw [(hp p (List.mem_of_mem_take hpm)).2]
        exact recovery_ok n blocks hb p.1
    have hres := chunkLoop_ok left n chunk hc _ (select false present blocks) hin (blocks_select false n present blocks hb)
      (by
        intro σ hσ k hk j hj
        rw [List.length_append, hst, hut]
        rw [hsf] at hk
        have := matrix_solves present (by rw [logs_length]; omega) (usedExps present packets)
          (by rw [hel, indices_false_length]) (by omega)
          (by
            intro e he
            unfold usedExps at he
            obtain ⟨p, _, rfl⟩ := List.mem_map.mp he
            exact Nat.mod_lt _ (by omega))
          left hcmp (fun i => σ ((blocks.getD i []).getD j 0))
          (fun c => σ (((select true present blocks ++ (packets.take (missingCount present)).map (fun p => p.2)).getD c []).getD j 0))
          (fun r => σ (((select false present blocks).getD r []).getD j 0))
          (by
            intro c hc
            rw [(getD_append _ _ c).1 (by omega), select_indices true present blocks hl, map_idx_getD _ _ _ hc])
          (by
            intro r hr
            rw [hel] at hr
            rw [← hst, (getD_append _ _ r).2, hub r hr, recovery_getD n blocks _ j hj, hσ.recovery _ _ (column_words n blocks hb j),
              column_length, hl]
            refine sum_congr rfl (fun i hi => ?_)
            rw [column_getD _ _ _ (by rw [hl]; exact mem_range.mp hi)])
          (by
            intro r hr
            rw [select_indices false present blocks hl, map_idx_getD _ _ _ (by rw [indices_false_length]; omega)])
          k (by omega)
        rw [hel] at this
        exact this)
      n 0 (by omega)
    rw [hsf] at hres
    have hrep : (select false present blocks).map (fun b => b.take 0) = List.replicate (missingCount present) [] := by
      rw [List.eq_replicate_iff]
      refine ⟨by rw [List.length_map, hsf], fun b hbm => ?_⟩
      obtain ⟨a, _, rfl⟩ := List.mem_map.mp hbm
      rfl
    rw [hrep] at hres
    rw [← h]
    exact hres

theorem logs_nodup : logs.Nodup := List.Nodup.filter _ List.nodup_range

theorem logs_lt {i : Nat} (hi : i < logs.length) : logs.getD i 0 < 65535 := by
  have := getD_mem hi
  unfold logs at this
  exact List.mem_range.mp (List.mem_filter.mp this).1

theorem getD_inj {l : List Nat} (hn : l.Nodup) {i j : Nat} (hi : i < l.length) (hj : j < l.length) (h : l.getD i 0 = l.getD j 0) : i = j := by
  rw [List.getD_eq_getElem?_getD, List.getD_eq_getElem?_getD, List.getElem?_eq_getElem hi, List.getElem?_eq_getElem hj] at h
  exact (List.Nodup.getElem_inj_iff hn).mp h

/-- At least as many recovery blocks as missing blocks, whose exponents follow each other: the repair computes the missing blocks. -/
theorem repair_consecutive (n chunk : Nat) (hc : 0 < chunk) (present : List Bool) (hn : present.length ≤ 32768)
    (blocks : List (List Nat)) (hl : blocks.length = present.length) (hb : Blocks n blocks) (packets : List (Nat × List Nat))
    (hp : ∀ p ∈ packets, p.1 < 65536 ∧ p.2 = recovery n blocks p.1) (henough : missingCount present ≤ packets.length)
    (first : Nat) (hcons : ∀ r, r < missingCount present → (packets.getD r (0, [])).1 = first + r) :
    repair n chunk present (select true present blocks) packets = some (select false present blocks) := by
  have hex : ∃ out, repair n chunk present (select true present blocks) packets = some out := by
    rw [repair_eq, if_neg (by omega)]
    by_cases q0 : missingCount present = 0
    · rw [if_pos q0]; exact ⟨_, rfl⟩
    rw [if_neg q0]
    have hel := usedExps_length present packets henough
    have hil := indices_false_length present 0
    have hlt : ∀ r, r < missingCount present → first + r < 65536 := by
      intro r hr
      rw [← hcons r hr, List.getD_eq_getElem?_getD, List.getElem?_eq_getElem (show r < packets.length by omega)]
      exact (hp _ (List.getElem_mem _)).1
    have hue : ∀ r, r < missingCount present → (usedExps present packets).getD r 0 = first + r := by
      intro r hr
      rw [usedExps_getD present packets r hr henough, hcons r hr, Nat.mod_eq_of_lt (hlt r hr)]
    have hidx : ∀ c, c < missingCount present → (indices false present 0).getD c 0 < logs.length := by
      intro c hc
      have := indices_lt false present 0 _ (getD_mem (show c < (indices false present 0).length by omega))
      rw [logs_length]; omega
    rw [compute_all _ _ (by rw [hel]; exact hil.symm) (by show (indices false present 0).length ≠ 0; omega)]
    have hm : (inputOf present).missing.length = missingCount present := hil
    rw [hm]
    obtain ⟨t, ht⟩ := gauss_succeeds (missingCount present) ((inputOf present).present.length + missingCount present) (missingCount present)
      (Nat.le_refl _) (fun c => alpha (logs.getD ((indices false present 0).getD c 0) 0))
      (fun c => alpha (logs.getD ((indices false present 0).getD c 0) 0) ^ first)
      (by
        intro i j hi hj e
        have e1 := alpha_inj (logs_lt (hidx i hi)) (logs_lt (hidx j hj)) e
        have e2 := getD_inj logs_nodup (hidx i hi) (hidx j hj) e1
        exact getD_inj (indices_nodup false present 0) (by omega) (by omega) e2)
      (by
        intro i _
        rw [alpha_pow]; exact alpha_ne _)
      (matrices (inputOf present) (usedExps present packets) []).right
      (by
        intro j c hj hcc
        rw [← pow_add, ← hue j hj]
        unfold matrices inputOf
        dsimp only
        rw [if_pos (by omega), if_pos (by omega), cell_eq present (by rw [logs_length]; exact hn) false c _ (by omega)
          (by rw [hue j hj]; exact hlt j hj)])
      (missingCount present) 0 (by omega) (matrices (inputOf present) (usedExps present packets) []) (unit0 _ _)
      (by
        intro r hr
        refine ⟨fun _ => 0, fun c _ => ?_⟩
        rw [Finset.sum_range_zero, if_pos (by omega), zero_add])
    rw [show gauss (missingCount present) ((inputOf present).present.length + missingCount present) 0 (missingCount present)
      (matrices (inputOf present) (usedExps present packets) []) = some t from ht]
    exact ⟨_, rfl⟩
  obtain ⟨out, h⟩ := hex
  rw [h, repair_exact n chunk hc present blocks hl hb packets hp out h]

/-- A single missing block is computed with any recovery block. -/
theorem repair_single (n chunk : Nat) (hc : 0 < chunk) (present : List Bool) (hn : present.length ≤ 32768)
    (blocks : List (List Nat)) (hl : blocks.length = present.length) (hb : Blocks n blocks) (packets : List (Nat × List Nat))
    (hp : ∀ p ∈ packets, p.1 < 65536 ∧ p.2 = recovery n blocks p.1) (henough : 1 ≤ packets.length) (hone : missingCount present = 1) :
    repair n chunk present (select true present blocks) packets = some (select false present blocks) :=
  repair_consecutive n chunk hc present hn blocks hl hb packets hp (by omega) (packets.getD 0 (0, [])).1
    (fun r hr => by rw [show r = 0 by omega]; rfl)

/-- With fewer recovery blocks than missing blocks nothing is computed, and neither for more than 32768 blocks. -/
theorem repair_refused (n chunk : Nat) (present : List Bool) (found : List (List Nat)) (packets : List (Nat × List Nat))
    (h : packets.length < missingCount present ∨ 32768 < present.length) : repair n chunk present found packets = none := by
  rw [repair_eq, if_pos h.symm]

/-- Two missing blocks whose constants, with the difference of the two exponents, have the same power: nothing is computed although there
are enough recovery blocks. -/
theorem repair_singular (n chunk : Nat) (present : List Bool) (hn : present.length ≤ 32768) (found : List (List Nat)) (i j e1 e2 : Nat)
    (b1 b2 : List Nat) (rest : List (Nat × List Nat)) (hm : indices false present 0 = [i, j]) (h1 : e1 < 65536) (h2 : e2 < 65536)
    (hs : (logs.getD i 0 * e1 + logs.getD j 0 * e2) % 65535 = (logs.getD j 0 * e1 + logs.getD i 0 * e2) % 65535) :
    repair n chunk present found ((e1, b1) :: (e2, b2) :: rest) = none := by
  have hc : missingCount present = 2 := by rw [← indices_false_length present 0, hm]; rfl
  have hu : usedExps present ((e1, b1) :: (e2, b2) :: rest) = [e1, e2] := by
    unfold usedExps
    rw [hc]
    show [e1 % 65536, e2 % 65536] = [e1, e2]
    rw [Nat.mod_eq_of_lt h1, Nat.mod_eq_of_lt h2]
  rw [repair_eq, hc, hu]
  have hM : ∀ r c, r < 2 → c < 2 → (matrices (inputOf present) [e1, e2] []).right r c =
      alpha (logs.getD ([i, j].getD c 0) 0) ^ ([e1, e2].getD r 0) := by
    intro r c hr hcc
    have hl : (indices false present 0).length = 2 := by rw [hm]; rfl
    unfold matrices inputOf
    dsimp only
    rw [if_pos (by omega), if_pos (by omega), cell_eq present (by rw [logs_length]; exact hn) false c _ (by omega)
      (by
        rcases Nat.lt_or_ge r 1 with q | q
        · rw [show r = 0 by omega]; exact h1
        · rw [show r = 1 by omega]; exact h2), hm]
  have hcomp : compute (inputOf present) ([e1, e2].map (fun e => (true, e))) = none := by
    rw [compute_all _ _ (by show 2 = (indices false present 0).length; rw [hm]; rfl)
      (by show (indices false present 0).length ≠ 0; rw [hm]; exact Nat.succ_ne_zero _)]
    have hl : (inputOf present).missing.length = 2 := by show (indices false present 0).length = 2; rw [hm]; rfl
    rw [hl]
    have p0 : (matrices (inputOf present) [e1, e2] []).right 0 0 ≠ 0 := by
      rw [hM 0 0 (by omega) (by omega), alpha_pow]; exact alpha_ne _
    have p1 := (pivot_get 2 ((inputOf present).present.length + 2) 0 (by omega) (matrices (inputOf present) [e1, e2] []) p0
      (fun c hc => absurd hc (by omega)) 1 1 (by omega)).2 (by omega)
    rw [if_neg (by omega)] at p1
    have hz : (matrices (inputOf present) [e1, e2] []).right 1 1 - (matrices (inputOf present) [e1, e2] []).right 0 1 /
        (matrices (inputOf present) [e1, e2] []).right 0 0 * (matrices (inputOf present) [e1, e2] []).right 1 0 = 0 := by
      have hmul : (matrices (inputOf present) [e1, e2] []).right 0 0 * (matrices (inputOf present) [e1, e2] []).right 1 1 =
          (matrices (inputOf present) [e1, e2] []).right 0 1 * (matrices (inputOf present) [e1, e2] []).right 1 0 := by
        rw [hM 0 0 (by omega) (by omega), hM 1 1 (by omega) (by omega), hM 0 1 (by omega) (by omega), hM 1 0 (by omega) (by omega)]
        show alpha (logs.getD i 0) ^ e1 * alpha (logs.getD j 0) ^ e2 = alpha (logs.getD j 0) ^ e1 * alpha (logs.getD i 0) ^ e2
        simp only [alpha_pow]
        refine (mul_alpha _ _).trans (Eq.trans ?_ (mul_alpha _ _).symm)
        rw [← alpha_mod, hs, alpha_mod]
      rw [sub_eq_zero]
      field_simp
      rw [mul_comm] at hmul
      exact hmul
    rw [hz] at p1
    have g : gauss 2 ((inputOf present).present.length + 2) 0 2 (matrices (inputOf present) [e1, e2] []) = none := by
      rw [gauss]
      rw [if_neg (show ¬ (matrices (inputOf present) [e1, e2] []).right 0 0 = 0 from p0), gauss]
      exact if_pos p1
    rw [show gauss 2 ((inputOf present).present.length + 2) 0 2 (matrices (inputOf present) [e1, e2] []) = none from g]
    rfl
  rw [if_neg (by rw [List.length_cons, List.length_cons]; omega), if_neg (by omega), hcomp]
  rfl

theorem logs_start : logs = 1 :: 2 :: 4 :: logsFrom 5 := by
  rw [logs_eq, logsFrom_cons 0 (by omega), if_neg (by decide), logsFrom_cons 1 (by omega), if_pos (by decide),
    logsFrom_cons 2 (by omega), if_pos (by decide), logsFrom_cons 3 (by omega), if_neg (by decide), logsFrom_cons 4 (by omega),
    if_pos (by decide)]

/-- Such a case: of three blocks the first and the last are missing, and the two recovery blocks have the exponents 0 and 21845. -/
theorem repair_can_fail (n chunk : Nat) (found : List (List Nat)) (b1 b2 : List Nat) :
    repair n chunk [false, true, false] found [(0, b1), (21845, b2)] = none := by
  refine repair_singular n chunk _ (by decide) found 0 2 0 21845 b1 b2 [] rfl (by omega) (by omega) ?_
  rw [logs_start]
  decide

/-- The hypotheses are met: three blocks of two words, the first and the last missing, three recovery blocks from the exponent 5. -/
example : repair 2 1 [false, true, false] [[7, 9]]
      [(5, recovery 2 [[1, 0xFFFF0003], [7, 9], [0x12345678, 4]] 5), (6, recovery 2 [[1, 0xFFFF0003], [7, 9], [0x12345678, 4]] 6),
       (7, recovery 2 [[1, 0xFFFF0003], [7, 9], [0x12345678, 4]] 7)] =
    some [[1, 0xFFFF0003], [0x12345678, 4]] := by
  refine repair_consecutive 2 1 (by omega) [false, true, false] (by decide) [[1, 0xFFFF0003], [7, 9], [0x12345678, 4]] rfl
    (by unfold Blocks; decide) _ ?_ (by decide) 5 ?_
  · intro p hp
    simp only [List.mem_cons, List.not_mem_nil, or_false] at hp
    rcases hp with rfl | rfl | rfl <;> exact ⟨by decide, rfl⟩
  · intro r hr
    have hr : r < 2 := hr
    rcases Nat.lt_or_ge r 1 with q | q
    · rw [show r = 0 by omega]; rfl
    · rw [show r = 1 by omega]; rfl

end Verif.Rs
