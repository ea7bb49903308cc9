import Verif.RarRenameNew
import Verif.FileNameProps
/-
Which names of rar-files are good, and how the new names look.
-/
namespace Verif.RarRename
open CStr FileName Files Rar

/- ## Lemmas -/

theorem decAux_length (f : Nat) : ∀ (n k : Nat), n < 10 ^ k → 1 ≤ k → (decAux f n).length ≤ k := by
  induction f with
  | zero => intro n k _ hk; simp [decAux]
  | succ f ih =>
    intro n k h hk
    rw [decAux, List.length_append, List.length_singleton]
    by_cases h1 : n < 10
    · rw [if_pos h1, List.length_nil]; omega
    · rw [if_neg h1]
      match k, hk with
      | 1, _ => omega
      | k + 2, _ =>
        have : n / 10 < 10 ^ (k + 1) := by
          rw [Nat.pow_succ] at h
          exact Nat.div_lt_of_lt_mul (by omega)
        have := ih (n / 10) (k + 1) this (by omega)
        omega

theorem dec_length {n k : Nat} (h : n < 10 ^ k) (hk : 1 ≤ k) : (dec n).length ≤ k := decAux_length _ n k h hk

theorem pad_length (w n : Nat) : (pad w n).length = max w (dec n).length := by
  unfold pad
  rw [List.length_append, List.length_replicate]
  omega

theorem digits_lt (d : Bytes) (h : ∀ b ∈ d, isDigit b = true) : ∀ (acc : Nat), digits acc d < (acc + 1) * 10 ^ d.length := by
  induction d with
  | nil => intro acc; simp [digits]
  | cons b d ih =>
    intro acc
    have hb := h b List.mem_cons_self
    rw [digits, if_pos hb]
    have h1 := ih (fun c hc => h c (List.mem_cons_of_mem _ hc)) (acc * 10 + (b.toNat - 48))
    have h2 : b.toNat ≤ 57 := by
      unfold isDigit at hb
      simp only [Bool.and_eq_true, decide_eq_true_eq] at hb
      exact hb.2
    rw [List.length_cons, Nat.pow_succ]
    have h3 : (acc * 10 + (b.toNat - 48) + 1) * 10 ^ d.length ≤ ((acc + 1) * 10) * 10 ^ d.length :=
      Nat.mul_le_mul_right _ (by omega)
    have h4 : (acc + 1) * 10 * 10 ^ d.length = (acc + 1) * (10 ^ d.length * 10) := by
      rw [Nat.mul_assoc, Nat.mul_comm 10]
    omega

theorem atoi_digits (d : Bytes) (hd : d ≠ []) (h : ∀ b ∈ d, isDigit b = true) (hl : d.length ≤ 9) :
    (ParName.atoi d % 2 ^ 32).toNat = digits 0 d := by
  cases d with
  | nil => exact absurd rfl hd
  | cons b l =>
    have hb := h b List.mem_cons_self
    have hv : 48 ≤ b.toNat ∧ b.toNat ≤ 57 := by
      unfold isDigit at hb
      simp only [Bool.and_eq_true, decide_eq_true_eq] at hb
      exact hb
    have hlt := digits_lt (b :: l) h 0
    have h10 : 10 ^ (b :: l).length ≤ 10 ^ 9 := Nat.pow_le_pow_right (by omega) hl
    have hsp : isSpace b = false := by
      cases hs : isSpace b with
      | false => rfl
      | true =>
        unfold isSpace at hs
        rw [Bool.or_eq_true] at hs
        rcases hs with hs | hs
        · rw [beq_iff_eq] at hs
          subst hs
          exact absurd hv.1 (by decide)
        · simp only [Bool.and_eq_true, decide_eq_true_eq] at hs
          omega
    have h1 : b ≠ 45 := by intro h2; subst h2; exact absurd hv.1 (by decide)
    have h2 : b ≠ 43 := by intro h2; subst h2; exact absurd hv.1 (by decide)
    have ha : atoll (b :: l) = (digits 0 (b :: l) : Int) := by
      unfold atoll
      rw [List.dropWhile_cons_of_neg (by rw [hsp]; exact Bool.false_ne_true)]
      dsimp only
      rw [if_neg h1, if_neg h2]
      unfold clamp64
      omega
    unfold ParName.atoi
    rw [ha]
    generalize digits 0 (b :: l) = n at *
    have : ((n : Int).bmod (2 ^ 32)) = n := by
      rw [Int.bmod_def]
      omega
    rw [this]
    omega

/- ## Names of volumes -/

/-- A name of the new style: any text with at least one character before "part", the number, and ".rar", without
regard to case. The first part `stem` ends with "part". -/
def NewStyle (stem number name : Bytes) : Prop :=
  ∃ a c t e, stem = a ++ c :: t ∧ t.map WildMask.lower = lit "part" ∧ name = stem ++ (number ++ e) ∧
    e.map WildMask.lower = lit ".rar" ∧ number ≠ [] ∧ ∀ b ∈ number, isDigit b = true

/-- All names have the same text before the numbers, the numbers have the same length, and they count from one. -/
def ProperNew (s : List Volume) : Prop :=
  ∃ stem len, ∀ v ∈ s, ∃ d, NewStyle stem d (baseName v.path) ∧ d.length = len ∧ digits 0 d = v.vol.volumeNo + 1

/-- All names have the same text before the extensions, which are rar, r00, r01, ... -/
def ProperOld (s : List Volume) : Prop :=
  ∃ stem, ∀ v ∈ s, baseName v.path = stem ++ 46 :: oldExt v.vol.volumeNo

theorem lower_digit {b c : UInt8} (h : WildMask.lower b = c) (hc : isDigit c = false) : isDigit b = false := by
  subst h
  have h1 : ∀ n : Fin 256, isDigit (WildMask.lower (UInt8.ofNat n)) = false → isDigit (UInt8.ofNat n) = false := by
    decide +kernel
  have h2 := h1 ⟨b.toNat, b.toNat_lt⟩
  dsimp only at h2
  rw [UInt8.ofNat_toNat] at h2
  exact h2 hc

theorem mem_takeWhile {f : UInt8 → Bool} {l : Bytes} {b : UInt8} (h : b ∈ l.takeWhile f) : f b = true := by
  induction l with
  | nil => cases h
  | cons c l ih =>
    cases hc : f c with
    | false => rw [List.takeWhile_cons_of_neg (by rw [hc]; exact Bool.false_ne_true)] at h; cases h
    | true =>
      rw [List.takeWhile_cons_of_pos hc] at h
      rcases List.mem_cons.mp h with e | h
      · rw [e]; exact hc
      · exact ih h

theorem partOf_new {stem d name : Bytes} (h : NewStyle stem d name) : partOf name = some (stem, d) := by
  obtain ⟨a, c, t, e, h1, h2, h3, h4, h5, h6⟩ := h
  have hrev : name.reverse = e.reverse ++ (d.reverse ++ stem.reverse) := by
    rw [h3, List.reverse_append, List.reverse_append, List.append_assoc]
  have hel : e.length = 4 := by have := congrArg List.length h4; rw [List.length_map] at this; exact this
  have htl : t.length = 4 := by have := congrArg List.length h2; rw [List.length_map] at this; exact this
  have hsrev : stem.reverse = t.reverse ++ c :: a.reverse := by
    rw [h1, List.reverse_append, List.reverse_cons, List.append_assoc]; rfl
  have htrev : t.reverse.map WildMask.lower = lit "trap" := by rw [List.map_reverse, h2]; rfl
  have hdrop : name.reverse.drop 4 = d.reverse ++ stem.reverse := by
    rw [hrev, List.drop_append_of_le_length (by rw [List.length_reverse]; omega), List.drop_of_length_le (by rw [List.length_reverse]; omega)]
    rfl
  have hhead : ∀ (x : UInt8) (l : Bytes), stem.reverse = x :: l → isDigit x = false := by
    intro x l hx
    match ht : t.reverse with
    | [] => have := congrArg List.length ht; rw [List.length_reverse, htl] at this; exact nomatch this
    | y :: m =>
      rw [hsrev, ht] at hx
      rw [ht, List.map_cons] at htrev
      have h7 := (List.cons.inj htrev).1
      have h8 : y = x := (List.cons.inj hx).1
      rw [← h8]
      exact lower_digit h7 (by decide)
  have htake : (d.reverse ++ stem.reverse).takeWhile isDigit = d.reverse := by
    rw [List.takeWhile_append_of_pos (fun x hx => h6 x (List.mem_reverse.mp hx))]
    cases hs : stem.reverse with
    | nil => rw [List.takeWhile_nil, List.append_nil]
    | cons x l =>
      rw [List.takeWhile_cons_of_neg (by rw [hhead x l hs]; exact Bool.false_ne_true), List.append_nil]
  unfold partOf
  dsimp only
  rw [hdrop, htake, List.drop_left, List.reverse_reverse, List.reverse_reverse, if_pos]
  refine ⟨?_, ?_, ?_, ?_⟩
  · rw [List.isPrefixOf_iff_prefix, hrev, List.map_append, List.map_reverse, h4]
    exact ⟨_, rfl⟩
  · intro h7; exact h5 (List.reverse_eq_nil_iff.mp h7)
  · rw [List.isPrefixOf_iff_prefix, hsrev, List.map_append, htrev]
    exact ⟨_, rfl⟩
  · rw [hsrev, List.length_append, List.length_reverse, htl, List.length_cons]; omega

theorem new_partOf {stem d name : Bytes} (h : partOf name = some (stem, d)) : NewStyle stem d name := by
  unfold partOf at h
  dsimp only at h
  generalize hd : (name.reverse.drop 4).takeWhile isDigit = d' at h
  generalize hr : (name.reverse.drop 4).drop d'.length = rest at h
  split at h
  · rename_i hc
    obtain ⟨h1, h2, h3, h4⟩ := hc
    cases h
    rw [List.isPrefixOf_iff_prefix] at h1 h3
    obtain ⟨z1, h1⟩ := h1
    obtain ⟨z3, h3⟩ := h3
    have hsplit : name.reverse.drop 4 = d' ++ rest := by
      have h5 := List.takeWhile_append_dropWhile (p := isDigit) (l := name.reverse.drop 4)
      rw [hd] at h5
      rw [← hr]
      generalize name.reverse.drop 4 = z at h5
      generalize List.dropWhile isDigit z = y at h5
      rw [← h5, List.drop_left]
    have hname : name = rest.reverse ++ (d'.reverse ++ (name.reverse.take 4).reverse) := by
      have h5 := List.take_append_drop 4 name.reverse
      rw [hsplit] at h5
      have h6 := congrArg List.reverse h5
      rw [List.reverse_reverse, List.reverse_append, List.reverse_append, List.append_assoc] at h6
      exact h6.symm
    have hrest : rest = rest.take 4 ++ rest.drop 4 := (List.take_append_drop 4 rest).symm
    have hlow : (rest.take 4).map WildMask.lower = lit "trap" := by
      rw [List.map_take, ← h3]; rfl
    cases hx : rest.drop 4 with
    | nil =>
      have := congrArg List.length hx
      rw [List.length_drop, List.length_nil] at this
      omega
    | cons x l =>
      rw [hx] at hrest
      refine ⟨l.reverse, x, (rest.take 4).reverse, (name.reverse.take 4).reverse, ?_, ?_, hname, ?_, ?_, ?_⟩
      · conv => lhs; rw [hrest]
        rw [List.reverse_append, List.reverse_cons, List.append_assoc]; rfl
      · rw [List.map_reverse, hlow]; rfl
      · rw [List.map_reverse, List.map_take, ← h1]; rfl
      · intro h5; exact h2 (List.reverse_eq_nil_iff.mp h5)
      · intro b hb
        have hb := List.mem_reverse.mp hb
        rw [← hd] at hb
        exact mem_takeWhile hb
  · exact nomatch h

theorem partOf_iff (stem d name : Bytes) : partOf name = some (stem, d) ↔ NewStyle stem d name := ⟨new_partOf, partOf_new⟩

theorem newStyle_length {stem d name : Bytes} (h : NewStyle stem d name) : name.length = stem.length + d.length + 4 := by
  obtain ⟨a, c, t, e, h1, h2, h3, h4, h5, h6⟩ := h
  have hel : e.length = 4 := by have := congrArg List.length h4; rw [List.length_map] at this; exact this
  rw [h3, List.length_append, List.length_append]
  omega

theorem newStyle_take {stem d name : Bytes} (h : NewStyle stem d name) : name.take stem.length = stem := by
  obtain ⟨a, c, t, e, h1, h2, h3, h4, h5, h6⟩ := h
  rw [h3, List.take_left]

/- The check of the volumes after the first. -/
theorem properLoop_new (base : Bytes) (len : Nat) (hl : len ≠ 0) (s : List Volume) (hnew : ∀ v ∈ s, v.vol.newNaming = true) :
    properLoop base len s = true ↔ ∀ v ∈ s, base.length = (baseName v.path).length ∧ ∃ p d, NewStyle p d (baseName v.path) ∧
      (ParName.atoi d % 2 ^ 32).toNat = (v.vol.volumeNo + 1) % 2 ^ 32 ∧ d.length = len ∧ base.take p.length = p := by
  induction s with
  | nil => exact ⟨fun _ v hv => (by cases hv), fun _ => rfl⟩
  | cons v s ih =>
    have ih := ih (fun w hw => hnew w (List.mem_cons_of_mem _ hw))
    rw [properLoop]
    dsimp only
    by_cases h1 : base.length ≠ (baseName v.path).length
    · rw [if_pos h1]
      exact ⟨(fun h => nomatch h), fun h => absurd (h v List.mem_cons_self).1 h1⟩
    · rw [if_neg h1, hnew v List.mem_cons_self, if_pos rfl]
      cases h2 : partOf (baseName v.path) with
      | none =>
        refine ⟨(fun h => nomatch h), fun h => ?_⟩
        obtain ⟨_, p, d, h3, _⟩ := h v List.mem_cons_self
        rw [partOf_new h3] at h2
        exact nomatch h2
      | some x =>
        obtain ⟨p, d⟩ := x
        have h3 := new_partOf h2
        dsimp only
        rw [if_neg hl, newStyle_take h3]
        constructor
        · intro h w hw
          split at h
          · rename_i hc
            rcases List.mem_cons.mp hw with e | hw
            · rw [e]; exact ⟨Classical.not_not.mp h1, p, d, h3, hc⟩
            · exact ih.mp h w hw
          · exact nomatch h
        · intro h
          obtain ⟨_, p', d', g1, g2⟩ := h v List.mem_cons_self
          rw [partOf_new g1] at h2
          cases h2
          rw [if_pos g2]
          exact ih.mpr (fun w hw => h w (List.mem_cons_of_mem _ hw))

/- **Which names of the new style are good**: a set keeps its names if and only if they are one text followed by the
numbers of the volumes, counted from one, with the same number of digits, and ".rar". -/
theorem proper_new_iff (s : List Volume) (hs : s ≠ []) (hnew : ∀ v ∈ s, v.vol.newNaming = true)
    (hno : ∀ v ∈ s, v.vol.volumeNo + 1 < 2 ^ 32)
    (hl : ∀ v ∈ s, ∀ p d, NewStyle p d (baseName v.path) → d.length ≤ 9) :
    isProper s = true ↔ ProperNew s := by
  cases s with
  | nil => exact absurd rfl hs
  | cons f s =>
    have hval : ∀ v ∈ f :: s, ∀ p d, NewStyle p d (baseName v.path) →
        ((ParName.atoi d % 2 ^ 32).toNat = (v.vol.volumeNo + 1) % 2 ^ 32 ↔ digits 0 d = v.vol.volumeNo + 1) := by
      intro v hv p d h
      have h9 := hl v hv p d h
      obtain ⟨a, c, t, e, _, _, _, _, h5, h6⟩ := h
      rw [atoi_digits d h5 h6 h9, Nat.mod_eq_of_lt (hno v hv)]
    rw [isProper]
    rw [properLoop]
    dsimp only
    rw [if_neg (by simp), hnew f List.mem_cons_self, if_pos rfl]
    cases h2 : partOf (baseName f.path) with
    | none =>
      refine ⟨(fun h => nomatch h), fun ⟨stem, len, h⟩ => ?_⟩
      obtain ⟨d, h3, _⟩ := h f List.mem_cons_self
      rw [partOf_new h3] at h2
      exact nomatch h2
    | some x =>
      obtain ⟨p, d⟩ := x
      have h3 := new_partOf h2
      have hd0 : d.length ≠ 0 := by
        obtain ⟨_, _, _, _, _, _, _, _, h5, _⟩ := h3
        intro h6; exact h5 (List.length_eq_zero_iff.mp h6)
      dsimp only
      rw [if_pos rfl, newStyle_take h3]
      constructor
      · intro h
        split at h
        · rename_i hc
          rw [properLoop_new _ _ hd0 s (fun w hw => hnew w (List.mem_cons_of_mem _ hw))] at h
          refine ⟨p, d.length, fun v hv => ?_⟩
          rcases List.mem_cons.mp hv with e | hv'
          · rw [e]; exact ⟨d, h3, rfl, (hval f List.mem_cons_self p d h3).mp hc.1⟩
          · obtain ⟨g1, p', d', g2, g3, g4, g5⟩ := h v hv'
            have e1 := newStyle_length g2
            have e2 := newStyle_length h3
            have e3 : p'.length = p.length := by omega
            have e4 : p' = p := by
              rw [← g5, e3]; exact newStyle_take h3
            subst e4
            exact ⟨d', g2, g4, (hval v hv p' d' g2).mp g3⟩
        · exact nomatch h
      · rintro ⟨stem, len, h⟩
        obtain ⟨d0, g1, g2, g3⟩ := h f List.mem_cons_self
        rw [partOf_new g1] at h2
        cases h2
        rw [if_pos ⟨(hval f List.mem_cons_self _ _ h3).mpr g3, rfl, rfl⟩]
        rw [properLoop_new _ _ hd0 s (fun w hw => hnew w (List.mem_cons_of_mem _ hw))]
        intro v hv
        obtain ⟨d', k1, k2, k3⟩ := h v (List.mem_cons_of_mem _ hv)
        have e1 := newStyle_length k1
        have e2 := newStyle_length h3
        exact ⟨by omega, p, d', k1, (hval v (List.mem_cons_of_mem _ hv) _ _ k1).mpr k3, by omega, newStyle_take h3⟩

theorem oldExt_props {n : Nat} (h : n ≤ 14200) : (oldExt n).length = 3 ∧ 46 ∉ oldExt n := by
  by_cases h0 : n = 0
  · subst h0; decide
  · rw [oldExt_eq h h0]
    have h1 : ∀ m, m < 100 → (pad 2 m).length = 2 := by decide +kernel
    refine ⟨by rw [List.length_cons, h1 _ (by omega)], ?_⟩
    intro hm
    rcases List.mem_cons.mp hm with e | hm
    · have h2 := oldChar_val h
      rw [← e] at h2
      have h3 : (46 : UInt8).toNat = 46 := rfl
      omega
    · exact absurd (pad_digits 2 _ 46 hm) (by decide)

theorem splitDot_iff {name p e : Bytes} : splitDot name = some (p, e) ↔ ∃ x, e = 46 :: x ∧ name = p ++ 46 :: x ∧ 46 ∉ x := by
  unfold splitDot
  constructor
  · intro h
    cases h1 : lastIdx 46 name with
    | none => rw [h1] at h; exact nomatch h
    | some i =>
      rw [h1] at h
      cases h
      obtain ⟨a, x, h2, h3, h4⟩ := lastIdx_some h1
      subst h3
      refine ⟨x, ?_, ?_, h4⟩
      · rw [h2, List.drop_left]
      · rw [h2, List.take_left]
  · rintro ⟨x, h1, h2, h3⟩
    rw [h2, lastIdx_append p h3]
    dsimp only
    rw [List.take_left, List.drop_left, h1]

theorem properLoop_old (base : Bytes) (len : Nat) (s : List Volume) (hold : ∀ v ∈ s, v.vol.newNaming = false)
    (hno : ∀ v ∈ s, v.vol.volumeNo ≤ 14200) :
    properLoop base len s = true ↔ ∀ v ∈ s, base.length = (baseName v.path).length ∧ ∃ p,
      baseName v.path = p ++ 46 :: oldExt v.vol.volumeNo ∧ base.take p.length = p := by
  induction s with
  | nil => exact ⟨fun _ v hv => (by cases hv), fun _ => rfl⟩
  | cons v s ih =>
    have ih := ih (fun w hw => hold w (List.mem_cons_of_mem _ hw)) (fun w hw => hno w (List.mem_cons_of_mem _ hw))
    obtain ⟨_, hdot⟩ := oldExt_props (hno v List.mem_cons_self)
    rw [properLoop]
    dsimp only
    by_cases h1 : base.length ≠ (baseName v.path).length
    · rw [if_pos h1]
      exact ⟨(fun h => nomatch h), fun h => absurd (h v List.mem_cons_self).1 h1⟩
    · rw [if_neg h1, hold v List.mem_cons_self, if_neg Bool.false_ne_true]
      cases h2 : splitDot (baseName v.path) with
      | none =>
        refine ⟨(fun h => nomatch h), fun h => ?_⟩
        obtain ⟨_, p, h3, _⟩ := h v List.mem_cons_self
        rw [splitDot_iff.mpr ⟨_, rfl, h3, hdot⟩] at h2
        exact nomatch h2
      | some x =>
        obtain ⟨p, e⟩ := x
        obtain ⟨x, h3, h4, h5⟩ := splitDot_iff.mp h2
        dsimp only
        have ht : (baseName v.path).take p.length = p := by rw [h4, List.take_left]
        rw [ht, h3, List.drop_one, List.tail_cons]
        constructor
        · intro h w hw
          split at h
          · rename_i hc
            rcases List.mem_cons.mp hw with e | hw
            · rw [e]; exact ⟨Classical.not_not.mp h1, p, by rw [h4, hc.1], hc.2⟩
            · exact ih.mp h w hw
          · exact nomatch h
        · intro h
          obtain ⟨_, p', g1, g2⟩ := h v List.mem_cons_self
          rw [splitDot_iff.mpr ⟨_, rfl, g1, hdot⟩] at h2
          cases h2
          rw [if_pos ⟨(List.cons.inj h3).2.symm, g2⟩]
          exact ih.mpr (fun w hw => h w (List.mem_cons_of_mem _ hw))

/- **Which names of the old style are good**: a set keeps its names if and only if they are one text followed by the
extensions rar, r00, r01 and so on. -/
theorem proper_old_iff (s : List Volume) (hs : s ≠ []) (hold : ∀ v ∈ s, v.vol.newNaming = false)
    (hno : ∀ v ∈ s, v.vol.volumeNo ≤ 14200) : isProper s = true ↔ ProperOld s := by
  cases s with
  | nil => exact absurd rfl hs
  | cons f s =>
    rw [isProper, properLoop_old _ _ _ hold hno]
    constructor
    · intro h
      obtain ⟨_, p, g1, _⟩ := h f List.mem_cons_self
      refine ⟨p, fun v hv => ?_⟩
      obtain ⟨k0, p', k1, k2⟩ := h v hv
      have e1 := congrArg List.length g1
      have e2 := congrArg List.length k1
      rw [List.length_append, List.length_cons, (oldExt_props (hno _ List.mem_cons_self)).1] at e1
      rw [List.length_append, List.length_cons, (oldExt_props (hno v hv)).1] at e2
      have e3 : p' = p := by
        rw [← k2, show p'.length = p.length by omega, g1, List.take_left]
      rw [k1, e3]
    · rintro ⟨stem, h⟩ v hv
      have e1 := congrArg List.length (h f List.mem_cons_self)
      have e2 := congrArg List.length (h v hv)
      rw [List.length_append, List.length_cons, (oldExt_props (hno _ List.mem_cons_self)).1] at e1
      rw [List.length_append, List.length_cons, (oldExt_props (hno v hv)).1] at e2
      refine ⟨by omega, stem, h v hv, ?_⟩
      rw [h f List.mem_cons_self, List.take_left]

/- **How the new names look**: the new style has the number counted from one with at least four digits. -/
theorem new_extension (n : Nat) : ∃ d, newExt n = lit "part" ++ (d ++ lit ".rar") ∧ (∀ b ∈ d, isDigit b = true) ∧
    digits 0 d = n + 1 ∧ (n + 1 < 10000 → d.length = 4) := by
  refine ⟨pad 4 (n + 1), rfl, pad_digits _ _, digits_pad _ _, fun h => ?_⟩
  rw [pad_length]
  have := dec_length (n := n + 1) (k := 4) h (by omega)
  omega

/- The old style has the extension rar, and then a character from r on and two digits. -/
theorem old_extension (n : Nat) (h : n ≤ 14200) : (n = 0 ∧ oldExt n = lit "rar") ∨ ∃ c d, oldExt n = c :: d ∧
    (∀ b ∈ d, isDigit b = true) ∧ d.length = 2 ∧ (c.toNat - 114) * 100 + digits 0 d + 1 = n ∧ 114 ≤ c.toNat := by
  by_cases h0 : n = 0
  · exact Or.inl ⟨h0, by rw [h0]; rfl⟩
  · have h1 : ∀ m, m < 100 → (pad 2 m).length = 2 := by decide +kernel
    refine Or.inr ⟨oldChar n, pad 2 ((n - 1) % 100), oldExt_eq h h0, pad_digits _ _, h1 _ (by omega), ?_, ?_⟩
    · rw [oldChar_val h, digits_pad]; omega
    · rw [oldChar_val h]; omega

/- The base of the new names: the name of the main file without directories, and without an extension of three
characters. -/
theorem main_base (name : Bytes) (hl : (baseName name).length ≤ 1023) :
    (∃ p x, baseName name = p ++ 46 :: x ∧ x.length = 3 ∧ 46 ∉ x ∧ mainBase name = p) ∨
    ((∀ p x, baseName name = p ++ 46 :: x → x.length = 3 → 46 ∈ x) ∧ mainBase name = baseName name) := by
  unfold mainBase
  dsimp only
  rw [List.take_of_length_le hl]
  cases h : splitDot (baseName name) with
  | none =>
    refine Or.inr ⟨fun p x h1 h2 => Classical.byContradiction fun h3 => ?_, rfl⟩
    rw [splitDot_iff.mpr ⟨x, rfl, h1, h3⟩] at h
    exact nomatch h
  | some y =>
    obtain ⟨p, e⟩ := y
    obtain ⟨x, h1, h2, h3⟩ := splitDot_iff.mp h
    dsimp only
    by_cases h4 : e.length = 4
    · rw [if_pos h4]
      rw [h1, List.length_cons] at h4
      exact Or.inl ⟨p, x, h2, by omega, h3, rfl⟩
    · rw [if_neg h4]
      refine Or.inr ⟨fun p' x' g1 g2 => Classical.byContradiction fun g3 => ?_, rfl⟩
      rw [splitDot_iff.mpr ⟨x', rfl, g1, g3⟩] at h
      cases h
      rw [List.length_cons] at h4
      omega

/- ## The search for a free name ends -/

theorem freshBase_none {fs : Dir} {dir main : Bytes} {s : List Volume} : ∀ {f k : Nat},
    freshBase fs dir main s f k = none → ∀ j, k ≤ j → j < k + f → willOverwrite fs dir (baseNo main j) s = true := by
  intro f
  induction f with
  | zero => intro k _ j h1 h2; omega
  | succ f ih =>
    intro k h j h1 h2
    rw [freshBase] at h
    cases hw : willOverwrite fs dir (baseNo main k) s with
    | false => rw [hw, if_neg Bool.false_ne_true] at h; exact nomatch h
    | true =>
      rw [hw, if_pos rfl] at h
      by_cases e : j = k
      · rw [e]; exact hw
      · exact ih h j (by omega) (by omega)

theorem name_inj {dir main x y : Bytes} {i j : Nat} (hi : baseNo main i = if i = 0 then main else main ++ 45 :: dec (i + 1))
    (hj : baseNo main j = if j = 0 then main else main ++ 45 :: dec (j + 1))
    (h : dir ++ 47 :: (baseNo main i ++ 46 :: x) = dir ++ 47 :: (baseNo main j ++ 46 :: y)) : i = j := by
  have h1 := (List.cons.inj (List.append_cancel_left h)).2
  rw [hi, hj] at h1
  by_cases h2 : i = 0
  · by_cases h3 : j = 0
    · omega
    · rw [if_pos h2, if_neg h3, List.append_assoc] at h1
      have h4 := (List.cons.inj (List.append_cancel_left h1)).1
      exact absurd h4 (by decide)
  · by_cases h3 : j = 0
    · rw [if_neg h2, if_pos h3, List.append_assoc] at h1
      have h4 := (List.cons.inj (List.append_cancel_left h1)).1
      exact absurd h4 (by decide)
    · rw [if_neg h2, if_neg h3, List.append_assoc, List.append_assoc] at h1
      have h4 := (List.cons.inj (List.append_cancel_left h1)).2
      have h5 : digits 0 (dec (i + 1) ++ 46 :: x) = digits 0 (dec (j + 1) ++ 46 :: y) := congrArg (digits 0) h4
      rw [digits_dec (i + 1) (46 :: x) (by intro b hb; cases hb; decide), digits_dec (j + 1) (46 :: y) (by intro b hb; cases hb; decide)] at h5
      omega

/- **The search for a free name ends** after at most as many names as there are files and one more, if the names of
files are shorter than 1000 characters. -/
theorem name_search_ends (fs : Dir) (dir main : Bytes) (s : List Volume) (fuel : Nat) (hn : fs.length < fuel)
    (hlen : fs.length + 2 < 10 ^ 20) (hshort : ∀ e ∈ fs, e.1.length ≤ dir.length + 1000) :
    ∃ base, freshBase fs dir main s fuel 0 = some base := by
  cases hf : freshBase fs dir main s fuel 0 with
  | some b => exact ⟨b, rfl⟩
  | none =>
    exfalso
    have hall := freshBase_none hf
    have hex : ∀ j, j < fs.length + 1 → ∃ q, q ∈ fs.map (·.1) ∧ ∃ x, q = dir ++ 47 :: (baseNo main j ++ 46 :: x) := by
      intro j hj
      obtain ⟨v, hv, hw⟩ := willOverwrite_true (hall j (by omega) (by omega))
      refine ⟨dest dir (baseNo main j) v, ?_, ext v.vol, rfl⟩
      exact Classical.byContradiction fun hno => hw ((get_none_iff _ _).mpr hno)
    have hmain : main.length < 1000 := by
      obtain ⟨q, hq, x, hx⟩ := hex 0 (by omega)
      obtain ⟨e, he, h1⟩ := List.mem_map.mp hq
      have h2 := hshort e he
      rw [h1, hx, List.length_append, List.length_cons, List.length_append, List.length_cons] at h2
      have h3 : baseNo main 0 = main := rfl
      rw [h3] at h2
      omega
    have hbase : ∀ j, j < fs.length + 1 → baseNo main j = if j = 0 then main else main ++ 45 :: dec (j + 1) := by
      intro j hj
      unfold baseNo
      by_cases h0 : j = 0
      · rw [if_pos h0, if_pos h0]
      · rw [if_neg h0, if_neg h0, List.take_of_length_le]
        have := dec_length (n := j + 1) (k := 20) (by omega) (by omega)
        rw [List.length_append, List.length_cons]
        omega
    let g : Nat → Bytes := fun j => if h : j < fs.length + 1 then Classical.choose (hex j h) else []
    have hg : ∀ j (h : j < fs.length + 1), g j ∈ fs.map (·.1) ∧ ∃ x, g j = dir ++ 47 :: (baseNo main j ++ 46 :: x) := by
      intro j h
      have := Classical.choose_spec (hex j h)
      show (if h : j < fs.length + 1 then Classical.choose (hex j h) else []) ∈ _ ∧ _
      simp only [g, dif_pos h]
      exact this
    have hnd : ((List.range (fs.length + 1)).map g).Nodup := by
      refine List.pairwise_map.mpr ?_
      refine List.Pairwise.imp_of_mem ?_ (List.nodup_range (n := fs.length + 1))
      intro i j hi hj hne he
      have hi := List.mem_range.mp hi
      have hj := List.mem_range.mp hj
      obtain ⟨_, x, hx⟩ := hg i hi
      obtain ⟨_, y, hy⟩ := hg j hj
      rw [hx, hy] at he
      exact hne (name_inj (hbase i hi) (hbase j hj) he)
    have hsub : ∀ q ∈ (List.range (fs.length + 1)).map g, q ∈ fs.map (·.1) := by
      intro q hq
      obtain ⟨j, hj, e⟩ := List.mem_map.mp hq
      rw [← e]
      exact (hg j (List.mem_range.mp hj)).1
    have := hnd.length_le_of_subset hsub
    rw [List.length_map, List.length_map, List.length_range] at this
    omega

end Verif.RarRename
