import Verif.RsWord
import Verif.GaussLemmas
/-
A repair computes exactly the missing blocks.
-/
namespace Verif.Rs
open Verif.Galois Verif.RsSpec
open Finset (range sum_range_succ sum_range_succ' sum_congr mem_range)

attribute [local irreducible] table

/-! ### The recovery blocks of the format in terms of the field -/

theorem product_eq (a b : Nat) (ha : a < 65536) (hb : b < 65536) : product a b = (ofValue a * ofValue b).value.toNat := by
  rw [mul_spec, toNat_ofValue ha, toNat_ofValue hb]

theorem constant_eq (i : Nat) : constant i = (alpha (logs.getD i 0)).value.toNat := by
  unfold constant
  rw [show (2 : Nat) = (alpha 1).value.toNat from by rw [alpha_toNat]; decide, power_eq, alpha_pow, Nat.one_mul]

theorem power_constant (i e : Nat) : power (constant i) e = (alpha (logs.getD i 0) ^ e).value.toNat := by
  rw [constant_eq, power_eq]

theorem combine_ok (f : Nat → G16) (ws : List Nat) (hw : ∀ w ∈ ws, w < 2 ^ 32) (i : Nat) :
    (combine (fun i => (f i).value.toNat) i ws).1 < 65536 ∧ (combine (fun i => (f i).value.toNat) i ws).2 < 65536 ∧
    ofValue (combine (fun i => (f i).value.toNat) i ws).1 = ∑ j ∈ range ws.length, f (i + j) * lo (ws.getD j 0) ∧
    ofValue (combine (fun i => (f i).value.toNat) i ws).2 = ∑ j ∈ range ws.length, f (i + j) * hi (ws.getD j 0) := by
  induction ws generalizing i with
  | nil => exact ⟨show 0 < 65536 by decide, show 0 < 65536 by decide, rfl, rfl⟩
  | cons w ws ih =>
    obtain ⟨a, b, c, d⟩ := ih (fun x hx => hw x (List.mem_cons_of_mem _ hx)) (i + 1)
    have hl : low w < 65536 := Nat.mod_lt _ (by omega)
    have hh : high w < 65536 := by have := hw w List.mem_cons_self; unfold high; omega
    rw [combine]
    dsimp only
    rw [product_eq _ _ (value_lt _) hl, product_eq _ _ (value_lt _) hh, ofValue_toNat]
    have a1 := xor_lt16 (value_lt (f i * ofValue (low w))) a
    have b1 := xor_lt16 (value_lt (f i * ofValue (high w))) b
    refine ⟨a1, b1, ?_, ?_⟩
    · rw [List.length_cons, sum_range_succ', ← sum_congr rfl (fun j _ => by
          rw [List.getD_cons_succ, show i + (j + 1) = (i + 1) + j by omega]), ← c]
      apply ext
      rw [toNat_ofValue a1, add_toNat, toNat_ofValue a]; exact Nat.xor_comm _ _
    · rw [List.length_cons, sum_range_succ', ← sum_congr rfl (fun j _ => by
          rw [List.getD_cons_succ, show i + (j + 1) = (i + 1) + j by omega]), ← d]
      apply ext
      rw [toNat_ofValue b1, add_toNat, toNat_ofValue b]; exact Nat.xor_comm _ _

/-- A symbol of the words: what it is in a recovery block and what Process does to it. -/
structure Sym (σ : Nat → G16) : Prop where
  zero : σ 0 = 0
  recovery : ∀ e ws, (∀ w ∈ ws, w < 2 ^ 32) →
    σ (recoveryWord e ws) = ∑ i ∈ range ws.length, alpha (logs.getD i 0) ^ e * σ (ws.getD i 0)
  process : ∀ f s d, s < 2 ^ 32 → d < 2 ^ 32 → σ (processWord f s d) = σ d + f * σ s

theorem recoveryWord_ok (e : Nat) (ws : List Nat) (hw : ∀ w ∈ ws, w < 2 ^ 32) :
    recoveryWord e ws < 2 ^ 32 ∧
    lo (recoveryWord e ws) = ∑ i ∈ range ws.length, alpha (logs.getD i 0) ^ e * lo (ws.getD i 0) ∧
    hi (recoveryWord e ws) = ∑ i ∈ range ws.length, alpha (logs.getD i 0) ^ e * hi (ws.getD i 0) := by
  unfold recoveryWord
  rw [show (fun i => power (constant i) e) = fun i => (alpha (logs.getD i 0) ^ e).value.toNat from funext (fun i => power_constant i e)]
  obtain ⟨a, b, c, d⟩ := combine_ok (fun i => alpha (logs.getD i 0) ^ e) ws hw 0
  dsimp only
  refine ⟨by omega, ?_, ?_⟩
  · unfold lo
    rw [low_join _ _ a, c]
    exact sum_congr rfl (fun j _ => by rw [Nat.zero_add]; rfl)
  · unfold hi
    rw [high_join _ _ a, d]
    exact sum_congr rfl (fun j _ => by rw [Nat.zero_add]; rfl)

theorem sym_lo : Sym lo := ⟨rfl, fun e ws hw => (recoveryWord_ok e ws hw).2.1, fun f s d hs hd => (processWord_ok f s d hs hd).2.1⟩
theorem sym_hi : Sym hi := ⟨rfl, fun e ws hw => (recoveryWord_ok e ws hw).2.2, fun f s d hs hd => (processWord_ok f s d hs hd).2.2⟩

/-! ### Present and missing blocks -/

theorem sum_getD (l : List Nat) (g : Nat → G16) : ∑ c ∈ range l.length, g (l.getD c 0) = (l.map g).sum := by
  induction l with
  | nil => rfl
  | cons a l ih =>
    rw [List.length_cons, sum_range_succ', List.map_cons, List.sum_cons, ← ih, add_comm]
    rfl

theorem sum_indices (ps : List Bool) (f : Nat → G16) (k : Nat) :
    ∑ i ∈ range ps.length, f (k + i) = ((indices true ps k).map f).sum + ((indices false ps k).map f).sum := by
  induction ps generalizing k with
  | nil => simp [indices]
  | cons p ps ih =>
    rw [List.length_cons, sum_range_succ', Nat.add_zero]
    have h : ∑ i ∈ range ps.length, f (k + (i + 1)) = ∑ i ∈ range ps.length, f (k + 1 + i) :=
      sum_congr rfl (fun i _ => by rw [show k + (i + 1) = k + 1 + i by omega])
    rw [h, ih (k + 1)]
    cases p
    · simp only [indices, if_true, List.map_cons, List.sum_cons, Bool.false_eq_true, if_false]
      rw [add_assoc, add_comm _ (f k)]
    · simp only [indices, if_true, List.map_cons, List.sum_cons, Bool.true_eq_false, if_false]
      rw [add_comm, ← add_assoc]

theorem indices_lt (v : Bool) (ps : List Bool) (k : Nat) : ∀ i ∈ indices v ps k, k ≤ i ∧ i < k + ps.length := by
  induction ps generalizing k with
  | nil => intro i hi; exact absurd hi (by simp [indices])
  | cons p ps ih =>
    intro i hi
    rw [indices] at hi
    rw [List.length_cons]
    by_cases q : p = v
    · rw [if_pos q] at hi
      rcases List.mem_cons.mp hi with e | e
      · omega
      · have := ih (k + 1) i e; omega
    · rw [if_neg q] at hi
      have := ih (k + 1) i hi; omega

theorem indices_nodup (v : Bool) (ps : List Bool) (k : Nat) : (indices v ps k).Nodup := by
  induction ps generalizing k with
  | nil => exact List.nodup_nil
  | cons p ps ih =>
    rw [indices]
    by_cases q : p = v
    · rw [if_pos q]
      refine List.nodup_cons.mpr ⟨fun h => ?_, ih (k + 1)⟩
      have := indices_lt v ps (k + 1) k h; omega
    · rw [if_neg q]; exact ih (k + 1)

theorem select_eq (v : Bool) (ps : List Bool) (all bs : List (List Nat)) (k : Nat) (hb : bs = all.drop k) (hl : bs.length = ps.length) :
    select v ps bs = (indices v ps k).map (fun i => all.getD i []) := by
  induction ps generalizing bs k with
  | nil => cases bs <;> rfl
  | cons p ps ih =>
    cases bs with
    | nil => exact nomatch hl
    | cons b bs =>
      have e1 : all.getD k [] = b := by
        have : (all.drop k)[0]? = some b := by rw [← hb]; rfl
        rw [List.getElem?_drop, Nat.add_zero] at this
        rw [List.getD_eq_getElem?_getD, this]; rfl
      have e2 : bs = all.drop (k + 1) := by
        rw [← List.drop_drop, ← hb]; rfl
      have := ih bs (k + 1) e2 (by simpa using hl)
      rw [select, indices]
      by_cases q : p = v
      · rw [if_pos q, if_pos q, List.map_cons, e1, this]
      · rw [if_neg q, if_neg q, this]

theorem select_indices (v : Bool) (ps : List Bool) (blocks : List (List Nat)) (hl : blocks.length = ps.length) :
    select v ps blocks = (indices v ps 0).map (fun i => blocks.getD i []) :=
  select_eq v ps blocks blocks 0 rfl hl

/-! ### The matrices -/

theorem takeRows_all (es : List Nat) : takeRows true es.length (es.map (fun e => (true, e))) = some es := by
  induction es with
  | nil => rfl
  | cons e es ih => rw [List.length_cons, List.map_cons, takeRows, if_pos rfl, ih]; rfl

theorem compute_all (inp : Input) (es : List Nat) (hl : es.length = inp.missing.length) (h0 : inp.missing.length ≠ 0) :
    compute inp (es.map (fun e => (true, e))) =
      (gauss inp.missing.length (inp.present.length + inp.missing.length) 0 inp.missing.length (matrices inp es [])).map (fun s => s.left) := by
  unfold compute
  have f1 : (es.map (fun e => (true, e))).filter (fun r => r.1) = es.map (fun e => (true, e)) :=
    List.filter_eq_self.mpr (fun r hr => by obtain ⟨e, _, rfl⟩ := List.mem_map.mp hr; rfl)
  have f2 : (es.map (fun e => (true, e))).filter (fun r => !r.1) = [] :=
    List.filter_eq_nil_iff.mpr (fun r hr => by obtain ⟨e, _, rfl⟩ := List.mem_map.mp hr; simp)
  rw [f1, f2, List.length_map, List.length_nil, if_neg (by omega), if_neg (by omega), ← hl, takeRows_all]
  have t0 : takeRows false 0 (es.map (fun e => (true, e))) = some [] := by cases es <;> rfl
  rw [t0]
  dsimp only
  rw [if_pos (by omega)]
  rfl

/-- The base of a block. -/
theorem base_eq (ps : List Bool) (hn : ps.length ≤ logs.length) (i : Nat) (hi : i < ps.length) :
    ((logs.take ps.length).map alpha).getD i ⟨0⟩ = alpha (logs.getD i 0) := by
  rw [List.getD_eq_getElem?_getD, List.getElem?_map, List.getElem?_take, if_pos hi, List.getD_eq_getElem?_getD,
    List.getElem?_eq_getElem (by omega)]
  rfl

theorem unit0 (rows : Nat) (s : Mats G16) : Unit rows 0 s := fun _ _ c hc => absurd hc (by omega)
theorem rest0 (rows : Nat) (s : Mats G16) : Rest rows rows s := fun _ _ c h1 h2 => absurd h1 (by omega)

/-- The input of SetInput for `ps`. -/
def inputOf (ps : List Bool) : Input :=
  { present := indices true ps 0, missing := indices false ps 0, base := (logs.take ps.length).map alpha }

theorem getD_mem {l : List Nat} {c : Nat} (h : c < l.length) : l.getD c 0 ∈ l := by
  rw [List.getD_eq_getElem?_getD, List.getElem?_eq_getElem h]
  exact List.getElem_mem h

theorem cell_eq (ps : List Bool) (hn : ps.length ≤ logs.length) (v : Bool) (c e : Nat) (hc : c < (indices v ps 0).length) (he : e < 65536) :
    Galois.pow (((logs.take ps.length).map alpha).getD ((indices v ps 0).getD c 0) ⟨0⟩) e =
      alpha (logs.getD ((indices v ps 0).getD c 0) 0) ^ e := by
  have := indices_lt v ps 0 _ (getD_mem hc)
  rw [pow_eq _ _ he, base_eq ps hn _ (by omega)]

/-- The equations of the recovery blocks hold for the matrices of the beginning. -/
theorem eqs_start (ps : List Bool) (hn : ps.length ≤ logs.length) (es : List Nat) (hl : es.length = (indices false ps 0).length)
    (he : ∀ e ∈ es, e < 65536) (D : Nat → G16) (X Y : Nat → G16)
    (hX1 : ∀ c, c < (indices true ps 0).length → X c = D ((indices true ps 0).getD c 0))
    (hX2 : ∀ r, r < es.length → X ((indices true ps 0).length + r) = ∑ i ∈ range ps.length, alpha (logs.getD i 0) ^ (es.getD r 0) * D i)
    (hY : ∀ r, r < es.length → Y r = D ((indices false ps 0).getD r 0)) :
    Eqs es.length ((indices true ps 0).length + es.length) X Y (matrices (inputOf ps) es []) := by
  intro r hr
  have her : es.getD r 0 < 65536 := he _ (getD_mem hr)
  have hP : ∀ c, c < (indices true ps 0).length → (matrices (inputOf ps) es []).left r c =
      alpha (logs.getD ((indices true ps 0).getD c 0) 0) ^ (es.getD r 0) := by
    intro c hc
    unfold matrices inputOf
    dsimp only
    rw [if_pos (by omega), if_pos hc, cell_eq ps hn true c _ hc her]
  have hI : ∀ c, c < es.length → (matrices (inputOf ps) es []).left r ((indices true ps 0).length + c) = if r = c then 1 else 0 := by
    intro c hc
    unfold matrices inputOf
    dsimp only
    rw [if_pos (by omega), if_neg (by omega), show (indices true ps 0).length + c - (indices true ps 0).length = c by omega]
    rfl
  have hM : ∀ c, c < es.length → (matrices (inputOf ps) es []).right r c =
      alpha (logs.getD ((indices false ps 0).getD c 0) 0) ^ (es.getD r 0) := by
    intro c hc
    unfold matrices inputOf
    dsimp only
    rw [if_pos (by omega), if_pos (by omega), cell_eq ps hn false c _ (by omega) her]
  rw [Finset.sum_range_add]
  have s1 : ∑ c ∈ range (indices true ps 0).length, (matrices (inputOf ps) es []).left r c * X c =
      ((indices true ps 0).map (fun i => alpha (logs.getD i 0) ^ (es.getD r 0) * D i)).sum := by
    rw [← sum_getD]
    refine sum_congr rfl (fun c hc => ?_)
    have hc := mem_range.mp hc
    rw [hP c hc, hX1 c hc]
  have s2 : ∑ c ∈ range es.length, (matrices (inputOf ps) es []).left r ((indices true ps 0).length + c) * X ((indices true ps 0).length + c) =
      ∑ i ∈ range ps.length, alpha (logs.getD i 0) ^ (es.getD r 0) * D i := by
    rw [← hX2 r hr, Finset.sum_eq_single r]
    · rw [hI r hr, if_pos rfl, one_mul]
    · intro c hc ne
      rw [hI c (mem_range.mp hc), if_neg (Ne.symm ne), zero_mul]
    · intro h; exact absurd (mem_range.mpr hr) h
  have s3 : ∑ c ∈ range es.length, (matrices (inputOf ps) es []).right r c * Y c =
      ((indices false ps 0).map (fun i => alpha (logs.getD i 0) ^ (es.getD r 0) * D i)).sum := by
    rw [← sum_getD, ← hl]
    refine sum_congr rfl (fun c hc => ?_)
    have hc := mem_range.mp hc
    rw [hM c hc, hY c hc]
  have s4 := sum_indices ps (fun i => alpha (logs.getD i 0) ^ (es.getD r 0) * D i) 0
  simp only [Nat.zero_add] at s4
  rw [s1, s2, s3, s4, ← add_assoc]
  have := add_self' ((indices true ps 0).map (fun i => alpha (logs.getD i 0) ^ (es.getD r 0) * D i)).sum
  exact (congrArg (· + _) this).trans (zero_add _)

/-- The computed matrix gives the missing symbols. -/
theorem matrix_solves (ps : List Bool) (hn : ps.length ≤ logs.length) (es : List Nat) (hl : es.length = (indices false ps 0).length)
    (h0 : es.length ≠ 0) (he : ∀ e ∈ es, e < 65536) (left : Mat G16)
    (h : compute (inputOf ps) (es.map (fun e => (true, e))) = some left) (D : Nat → G16) (X Y : Nat → G16)
    (hX1 : ∀ c, c < (indices true ps 0).length → X c = D ((indices true ps 0).getD c 0))
    (hX2 : ∀ r, r < es.length → X ((indices true ps 0).length + r) = ∑ i ∈ range ps.length, alpha (logs.getD i 0) ^ (es.getD r 0) * D i)
    (hY : ∀ r, r < es.length → Y r = D ((indices false ps 0).getD r 0)) (r : Nat) (hr : r < es.length) :
    ∑ c ∈ range ((indices true ps 0).length + es.length), left r c * X c = Y r := by
  rw [compute_all (inputOf ps) es hl (by show (indices false ps 0).length ≠ 0; omega)] at h
  have hm : (inputOf ps).missing.length = es.length := hl.symm
  have hp : (inputOf ps).present.length = (indices true ps 0).length := rfl
  rw [hm, hp] at h
  cases hg : gauss es.length ((indices true ps 0).length + es.length) 0 es.length (matrices (inputOf ps) es []) with
  | none => rw [hg] at h; exact nomatch h
  | some t =>
    rw [hg] at h
    injection h with h
    have := gauss_solves es.length ((indices true ps 0).length + es.length) es.length (Nat.le_refl _) X Y es.length 0 (by omega) _ t
      (unit0 _ _) (rest0 _ _) (eqs_start ps hn es hl he D X Y hX1 hX2 hY) hg r hr
    rw [← h]
    exact this

/-! ### The buffers -/

theorem process_ok (f : G16) (src dst : List Nat) (len : Nat) (h1 : src.length = len) (h2 : dst.length = len)
    (w1 : ∀ w ∈ src, w < 2 ^ 32) (w2 : ∀ w ∈ dst, w < 2 ^ 32) (σ : Nat → G16) (hσ : Sym σ) :
    (process f src dst).length = len ∧ (∀ w ∈ process f src dst, w < 2 ^ 32) ∧
    ∀ j, j < len → σ ((process f src dst).getD j 0) = σ (dst.getD j 0) + f * σ (src.getD j 0) := by
  unfold process
  by_cases q : f = ⟨0⟩
  · rw [if_pos q]
    refine ⟨h2, w2, fun j _ => ?_⟩
    rw [show f = 0 from q, zero_mul, add_zero]
  · rw [if_neg q]
    refine ⟨by rw [List.length_zipWith]; omega, ?_, ?_⟩
    · intro w hw
      obtain ⟨j, hj, e⟩ := List.getElem_of_mem hw
      rw [List.getElem_zipWith] at e
      rw [← e]
      exact (processWord_ok f _ _ (w1 _ (List.getElem_mem _)) (w2 _ (List.getElem_mem _))).1
    · intro j hj
      have e1 : (List.zipWith (processWord f) src dst).getD j 0 = processWord f (src.getD j 0) (dst.getD j 0) := by
        rw [List.getD_eq_getElem?_getD, List.getD_eq_getElem?_getD, List.getD_eq_getElem?_getD,
          List.getElem?_eq_getElem (by rw [List.length_zipWith]; omega), List.getElem?_eq_getElem (show j < src.length by omega),
          List.getElem?_eq_getElem (show j < dst.length by omega), List.getElem_zipWith]
        rfl
      rw [e1, hσ.process f _ _ (w1 _ (getD_mem (by omega))) (w2 _ (getD_mem (by omega)))]

theorem processInputs_ok (left : Mat G16) (k len : Nat) (σ : Nat → G16) (hσ : Sym σ) (inputs : List (List Nat))
    (hi : ∀ b ∈ inputs, b.length = len ∧ ∀ w ∈ b, w < 2 ^ 32) (c : Nat) (out : Nat → List Nat)
    (ho : (out k).length = len ∧ ∀ w ∈ out k, w < 2 ^ 32) :
    (processInputs left c inputs out k).length = len ∧ (∀ w ∈ processInputs left c inputs out k, w < 2 ^ 32) ∧
    ∀ j, j < len → σ ((processInputs left c inputs out k).getD j 0) =
      σ ((out k).getD j 0) + ∑ i ∈ range inputs.length, left k (c + i) * σ ((inputs.getD i []).getD j 0) := by
  induction inputs generalizing c out with
  | nil => exact ⟨ho.1, ho.2, fun j _ => by rw [List.length_nil, Finset.sum_range_zero, add_zero]; rfl⟩
  | cons b bs ih =>
    rw [processInputs]
    have hb := hi b List.mem_cons_self
    obtain ⟨a1, a2, a3⟩ := process_ok (left k c) b (out k) len hb.1 ho.1 hb.2 ho.2 σ hσ
    obtain ⟨b1, b2, b3⟩ := ih (fun x hx => hi x (List.mem_cons_of_mem _ hx)) (c + 1) (fun k => process (left k c) b (out k)) ⟨a1, a2⟩
    refine ⟨b1, b2, fun j hj => ?_⟩
    rw [b3 j hj, a3 j hj, List.length_cons, sum_range_succ', add_assoc, add_comm (left k c * _)]
    congr 2
    exact sum_congr rfl (fun i _ => by rw [show c + 1 + i = c + (i + 1) by omega]; rfl)

theorem slice_getD (b : List Nat) (offset len j : Nat) (hj : j < len) : ((b.drop offset).take len).getD j 0 = b.getD (offset + j) 0 := by
  rw [List.getD_eq_getElem?_getD, List.getD_eq_getElem?_getD, List.getElem?_take, if_pos hj, List.getElem?_drop]

theorem map_getD (l : List (List Nat)) (f : List Nat → List Nat) (i : Nat) (hi : i < l.length) : (l.map f).getD i [] = f (l.getD i []) := by
  rw [List.getD_eq_getElem?_getD, List.getD_eq_getElem?_getD, List.getElem?_map, List.getElem?_eq_getElem hi]; rfl

/-- One pass over all blocks writes the part of the missing blocks. -/
theorem processData_ok (left : Mat G16) (n : Nat) (inputs missing : List (List Nat)) (offset len : Nat) (hol : offset + len ≤ n)
    (hi : ∀ b ∈ inputs, b.length = n ∧ ∀ w ∈ b, w < 2 ^ 32) (hm : ∀ b ∈ missing, b.length = n ∧ ∀ w ∈ b, w < 2 ^ 32)
    (hs : ∀ σ, Sym σ → ∀ k, k < missing.length → ∀ j, j < n →
      ∑ c ∈ range inputs.length, left k c * σ ((inputs.getD c []).getD j 0) = σ ((missing.getD k []).getD j 0)) :
    processData left missing.length inputs offset len = missing.map (fun b => (b.drop offset).take len) := by
  unfold processData
  dsimp only
  apply List.ext_getElem
  · rw [List.length_map, List.length_range, List.length_map]
  intro k hk1 hk2
  rw [List.length_map] at hk2
  rw [List.getElem_map, List.getElem_map, List.getElem_range]
  have hsl : ∀ b : List Nat, b.length = n → ((b.drop offset).take len).length = len := by
    intro b hb; rw [List.length_take, List.length_drop]; omega
  have hin : ∀ b ∈ inputs.map (fun b => (b.drop offset).take len), b.length = len ∧ ∀ w ∈ b, w < 2 ^ 32 := by
    intro b hb
    obtain ⟨a, ha, rfl⟩ := List.mem_map.mp hb
    exact ⟨hsl a (hi a ha).1, fun w hw => (hi a ha).2 w (List.mem_of_mem_drop (List.mem_of_mem_take hw))⟩
  have hmk := hm _ (List.getElem_mem hk2)
  have hgd : missing.getD k [] = missing[k] := by
    rw [List.getD_eq_getElem?_getD, List.getElem?_eq_getElem hk2]; rfl
  have key : ∀ σ, Sym σ → (processInputs left 0 (inputs.map (fun b => (b.drop offset).take len)) (fun _ => List.replicate len 0) k).length = len ∧
      (∀ w ∈ processInputs left 0 (inputs.map (fun b => (b.drop offset).take len)) (fun _ => List.replicate len 0) k, w < 2 ^ 32) ∧
      ∀ j, j < len → σ ((processInputs left 0 (inputs.map (fun b => (b.drop offset).take len)) (fun _ => List.replicate len 0) k).getD j 0) =
        σ (missing[k].getD (offset + j) 0) := by
    intro σ hσ
    obtain ⟨a, b, c⟩ := processInputs_ok left k len σ hσ _ hin 0 (fun _ => List.replicate len 0)
      ⟨List.length_replicate, fun w hw => by rw [(List.mem_replicate.mp hw).2]; decide⟩
    refine ⟨a, b, fun j hj => ?_⟩
    rw [c j hj, ← hgd, ← hs σ hσ k hk2 (offset + j) (by omega)]
    have z : (List.replicate len 0).getD j 0 = 0 := by
      rw [List.getD_eq_getElem?_getD, List.getElem?_replicate]
      split <;> rfl
    rw [z, hσ.zero, zero_add, List.length_map]
    refine sum_congr rfl (fun i hi' => ?_)
    rw [Nat.zero_add, map_getD _ _ _ (mem_range.mp hi'), slice_getD _ _ _ _ hj]
  obtain ⟨a, b, c1⟩ := key lo sym_lo
  obtain ⟨_, _, c2⟩ := key Rs.hi sym_hi
  generalize processInputs left 0 (inputs.map (fun b => (b.drop offset).take len)) (fun _ => List.replicate len 0) k = res at a b c1 c2
  have hlen := hsl _ hmk.1
  apply List.ext_getElem (by rw [a, hlen])
  intro j hj1 hj2
  have e1 : res.getD j 0 = res[j] := by rw [List.getD_eq_getElem?_getD, List.getElem?_eq_getElem hj1]; rfl
  have e2 : missing[k].getD (offset + j) 0 = ((missing[k].drop offset).take len)[j] := by
    rw [← slice_getD _ _ len _ (by omega), List.getD_eq_getElem?_getD, List.getElem?_eq_getElem hj2]; rfl
  rw [← e1, ← e2]
  refine word_ext (b _ (getD_mem hj1)) (hmk.2 _ (getD_mem (by omega))) (c1 j (by omega)) (c2 j (by omega))

theorem zip_take (l : List (List Nat)) (o len : Nat) :
    List.zipWith (· ++ ·) (l.map (fun b => b.take o)) (l.map (fun b => (b.drop o).take len)) = l.map (fun b => b.take (o + len)) := by
  induction l with
  | nil => rfl
  | cons b l ih => rw [List.map_cons, List.map_cons, List.map_cons, List.zipWith_cons_cons, ih, List.take_add]

theorem chunkLoop_ok (left : Mat G16) (n chunk : Nat) (hc : 0 < chunk) (inputs missing : List (List Nat))
    (hi : ∀ b ∈ inputs, b.length = n ∧ ∀ w ∈ b, w < 2 ^ 32) (hm : ∀ b ∈ missing, b.length = n ∧ ∀ w ∈ b, w < 2 ^ 32)
    (hs : ∀ σ, Sym σ → ∀ k, k < missing.length → ∀ j, j < n →
      ∑ c ∈ range inputs.length, left k c * σ ((inputs.getD c []).getD j 0) = σ ((missing.getD k []).getD j 0))
    (fuel offset : Nat) (hf : n - offset ≤ fuel) :
    chunkLoop left missing.length inputs n chunk fuel offset (missing.map (fun b => b.take offset)) = missing := by
  have done : n ≤ offset → missing.map (fun b => b.take offset) = missing := by
    intro h
    rw [List.map_congr_left (g := id) (fun b hb => by
      rw [List.take_of_length_le (by rw [(hm b hb).1]; exact h)]; rfl), List.map_id]
  induction fuel generalizing offset with
  | zero => rw [chunkLoop]; exact done (by omega)
  | succ fuel ih =>
    rw [chunkLoop]
    by_cases q : offset < n
    · rw [if_pos q]
      dsimp only
      rw [processData_ok left n inputs missing offset (min chunk (n - offset)) (by omega) hi hm hs, zip_take]
      refine ih _ (by omega) ?_
      intro h
      rw [List.map_congr_left (g := id) (fun b hb => by
        rw [List.take_of_length_le (by rw [(hm b hb).1]; exact h)]; rfl), List.map_id]
    · rw [if_neg q]; exact done (by omega)

end Verif.Rs
