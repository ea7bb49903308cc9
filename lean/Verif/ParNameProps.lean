import Verif.ParName
import Verif.FileNameProps
/-! C46: names of par2-files. -/
namespace Verif.ParName
open CStr WildMask FileName

/-- The name is that of a par2-file for the program. -/
def IsPar (confirmed : Bool) (name : Bytes) : Prop := (parse confirmed name).isSome

/-! ### An equivalence -/

theorem same_def (c : Bool) (a b : Bytes) : same c a b = true ↔
    ∃ x y, parse c a = some x ∧ parse c b = some y ∧ x.1 = y.1 ∧ (a.take x.1).map lower = (b.take x.1).map lower := by
  unfold same
  cases ha : parse c a with
  | none => simp
  | some x =>
    cases hb : parse c b with
    | none => simp
    | some y => simp

/-- **C46.** Every par2-file belongs to its own set, and nothing else does. -/
theorem same_refl_iff (c : Bool) (a : Bytes) : same c a a = true ↔ IsPar c a := by
  rw [same_def]
  unfold IsPar
  cases ha : parse c a with
  | none => simp
  | some x => simp

/-- **C46.** -/
theorem same_symm {c : Bool} {a b : Bytes} (h : same c a b = true) : same c b a = true := by
  rw [same_def] at *
  obtain ⟨x, y, h1, h2, h3, h4⟩ := h
  exact ⟨y, x, h2, h1, h3.symm, by rw [← h3]; exact h4.symm⟩

/-- **C46.** -/
theorem same_trans {c : Bool} {a b d : Bytes} (h : same c a b = true) (h' : same c b d = true) : same c a d = true := by
  rw [same_def] at *
  obtain ⟨x, y, h1, h2, h3, h4⟩ := h
  obtain ⟨y', z, g1, g2, g3, g4⟩ := h'
  rw [h2] at g1
  injection g1 with g1
  subst g1
  exact ⟨x, z, h1, g2, h3.trans g3, by rw [h4, h3]; exact g4⟩

/-! ### The usual names -/

/-- The base name looks like a volume itself: the text after its last dot begins with `vol` and has a plus or minus. -/
def LooksVolume (base : Bytes) : Prop :=
  ∃ a t, base = a ++ 46 :: t ∧ 46 ∉ t ∧ (∃ r, t.map lower = lit "vol" ++ r) ∧ (43 ∈ t ∨ 45 ∈ t)

theorem lower_small {x : UInt8} (hx : x.toNat < 65) (c : UInt8) : lower c = x ↔ c = x := by
  constructor
  · intro h
    unfold lower at h
    split at h
    · next hr =>
      have := congrArg UInt8.toNat h
      rw [UInt8.toNat_ofNat'] at this
      omega
    · exact h
  · rintro rfl
    unfold lower
    rw [if_neg (by omega)]

theorem mem_lower {x : UInt8} (hx : x.toNat < 65) (s : Bytes) : x ∈ s.map lower ↔ x ∈ s := by
  rw [List.mem_map]
  constructor
  · rintro ⟨c, hc, e⟩
    rw [lower_small hx] at e
    rwa [e] at hc
  · intro h
    exact ⟨x, h, (lower_small hx x).mpr rfl⟩

theorem lastIdx_append {c : UInt8} {a e : Bytes} (he : c ∉ e) : lastIdx c (a ++ c :: e) = some a.length := by
  cases h : lastIdx c (a ++ c :: e) with
  | none => exact absurd (by simp) (lastIdx_none h)
  | some i =>
    obtain ⟨a', e', h1, h2, h3⟩ := lastIdx_some h
    obtain ⟨r1, -⟩ := last_unique h1 he h3
    rw [r1, h2]

theorem stem_append {s : Bytes} (hs : s ≠ []) : stem (s ++ lit ".par2") = some s := by
  have hl : (s ++ lit ".par2").length = s.length + 5 := by rw [List.length_append]; rfl
  have hp := List.length_pos_iff.mpr hs
  unfold stem
  rw [if_neg (by omega), hl, show s.length + 5 - 5 = s.length by omega, if_pos (List.drop_left' rfl), List.take_left' rfl]

theorem after_one (x : UInt8) : ∀ (s : Bytes), after [x] s = none ↔ x ∉ s := by
  intro s
  induction s with
  | nil => simp [after]
  | cons b s ih =>
    unfold after startsWith
    by_cases hb : b = x
    · subst hb; simp
    · rw [if_neg (by simp [List.isPrefixOf, Ne.symm hb]), ih]
      simp [Ne.symm hb]

/-- **C46.** `name.par2`: the base name is everything before the extension. -/
theorem parse_main {base ext : Bytes} (hext : ext.map lower = lit ".par2") (hb : base ≠ []) (hl : base.length ≤ 1018)
    (hv : ¬ LooksVolume base) : parse true (base ++ ext) = some (base.length, 0) := by
  have hel : ext.length = 5 := by have := congrArg List.length hext; rwa [List.length_map] at this
  have hb2 := List.length_pos_iff.mpr hb
  unfold parse
  rw [List.take_of_length_le (by rw [List.length_append]; omega), List.map_append, hext]
  dsimp only
  rw [if_neg (by rw [List.length_append, List.length_map]; have : (lit ".par2").length = 5 := rfl; omega), if_pos rfl,
    stem_append (by intro h; exact hb (List.map_eq_nil_iff.mp h))]
  dsimp only
  unfold volume
  cases hi : lastIdx 46 (base.map lower) with
  | none => rw [List.length_map]
  | some p =>
    dsimp only
    obtain ⟨a, e, h1, h2, h3⟩ := lastIdx_some hi
    have hd : (base.map lower).drop p = 46 :: e := by rw [h1]; exact List.drop_left' h2
    rw [hd]
    by_cases hs : startsWith (lit ".vol") (46 :: e) = true
    · rw [if_pos hs]
      have hbt : blockText (46 :: e) = none := by
        obtain ⟨a', t', k1, k2, k3⟩ := List.map_eq_append_iff.mp h1
        cases t' with
        | nil => exact nomatch k3
        | cons y t =>
          rw [List.map_cons, List.cons.injEq] at k3
          have hy : y = 46 := (lower_small (by decide) y).mp k3.1
          subst hy
          have ht : 46 ∉ t := by rw [← mem_lower (by decide), k3.2]; exact h3
          have hr : ∃ r, t.map lower = lit "vol" ++ r := by
            unfold startsWith at hs
            rw [List.isPrefixOf_iff_prefix] at hs
            obtain ⟨r, hr⟩ := hs
            refine ⟨r, ?_⟩
            rw [k3.2]
            have : lit ".vol" ++ r = 46 :: (lit "vol" ++ r) := rfl
            rw [this, List.cons.injEq] at hr
            exact hr.2.symm
          have n1 : 43 ∉ t := fun h => hv ⟨a', t, k1, ht, hr, Or.inl h⟩
          have n2 : 45 ∉ t := fun h => hv ⟨a', t, k1, ht, hr, Or.inr h⟩
          unfold blockText
          have m1 : after (lit "+") (46 :: e) = none := by
            refine (after_one 43 _).mpr ?_
            rw [List.mem_cons]
            rintro (h | h)
            · exact absurd h (by decide)
            · rw [← k3.2, mem_lower (by decide)] at h; exact n1 h
          have m2 : after (lit "-") (46 :: e) = none := by
            refine (after_one 45 _).mpr ?_
            rw [List.mem_cons]
            rintro (h | h)
            · exact absurd h (by decide)
            · rw [← k3.2, mem_lower (by decide)] at h; exact n2 h
          rw [m1]
          exact m2
      rw [hbt, List.length_map]
    · rw [if_neg hs, List.length_map]

theorem lower_dec (n : Nat) : (dec n).map lower = dec n := by
  have : ∀ c ∈ dec n, lower c = c := by
    intro c hc
    have := isDigit_dec n c hc
    unfold isDigit at this
    simp only [Bool.and_eq_true, decide_eq_true_eq] at this
    unfold lower
    rw [if_neg (by omega)]
  have := List.map_congr_left (f := lower) (g := id) this
  rw [this, List.map_id]

/-- **C46.** `name.volX+N.par2` or `name.volX-N.par2`: the base name is everything before `.vol`, the number of blocks
is `N`. -/
theorem parse_vol {base vol mid ext : Bytes} {sep : UInt8} {n : Nat} (hext : ext.map lower = lit ".par2")
    (hvol : vol.map lower = lit ".vol") (hmid : 46 ∉ mid ∧ 43 ∉ mid ∧ 45 ∉ mid) (hsep : sep = 43 ∨ sep = 45) (hn : n < 2 ^ 31)
    (hl : (base ++ vol ++ mid ++ sep :: dec n ++ ext).length ≤ 1023) :
    parse true (base ++ vol ++ mid ++ sep :: dec n ++ ext) = some (base.length, (n : Int)) := by
  have hel : ext.length = 5 := by have := congrArg List.length hext; rwa [List.length_map] at this
  have hvl : vol.length = 4 := by have := congrArg List.length hvol; rwa [List.length_map] at this
  have hsl : lower sep = sep := by rcases hsep with rfl | rfl <;> decide
  unfold parse
  rw [List.take_of_length_le hl]
  have ef : (base ++ vol ++ mid ++ sep :: dec n ++ ext).map lower =
      (base.map lower ++ (46 :: (lit "vol" ++ mid.map lower ++ sep :: dec n))) ++ lit ".par2" := by
    have e : lit ".vol" = 46 :: lit "vol" := rfl
    simp only [List.map_append, hext, hvol, List.map_cons, hsl, lower_dec, e, List.append_assoc, List.cons_append]
  rw [ef]
  dsimp only
  rw [if_neg (by simp only [List.length_append, List.length_cons, List.length_map]; have : (lit ".par2").length = 5 := rfl; omega), if_pos rfl,
    stem_append (by simp)]
  dsimp only
  have hdot : 46 ∉ lit "vol" ++ mid.map lower ++ sep :: dec n := by
    rw [List.mem_append, List.mem_append, List.mem_cons, mem_lower (by decide)]
    rintro ((h | h) | h | h)
    · exact absurd h (by decide)
    · exact hmid.1 h
    · rcases hsep with rfl | rfl <;> exact absurd h (by decide)
    · exact absurd (isDigit_dec n _ h) (by decide)
  have hnd : ∀ x : UInt8, isDigit x = false → x ∉ dec n := fun x hx h => by
    have := isDigit_dec n _ h; rw [hx] at this; exact nomatch this
  have hb : blockText (46 :: (lit "vol" ++ mid.map lower ++ sep :: dec n)) = some (dec n) := by
    have e : (46 :: (lit "vol" ++ mid.map lower ++ sep :: dec n)) = (46 :: lit "vol" ++ mid.map lower) ++ ([sep] ++ dec n) := by simp
    have hno : ∀ x : UInt8, x = 43 ∨ x = 45 → x ∉ 46 :: lit "vol" ++ mid.map lower := by
      intro x hx h
      rw [List.mem_append] at h
      rcases hx with rfl | rfl
      · rcases h with h | h
        · exact absurd h (by decide)
        · rw [mem_lower (by decide)] at h; exact hmid.2.1 h
      · rcases h with h | h
        · exact absurd h (by decide)
        · rw [mem_lower (by decide)] at h; exact hmid.2.2 h
    rw [e]
    unfold blockText
    have e43 : lit "+" = [43] := rfl
    have e45 : lit "-" = [45] := rfl
    rw [e43, e45, after_skip 43 [] _ _ (hno 43 (Or.inl rfl)), after_skip 45 [] _ _ (hno 45 (Or.inr rfl))]
    rcases hsep with rfl | rfl
    · rw [after_self]
    · have : after [43] ([45] ++ dec n) = none := by
        rw [after_one, List.mem_append]
        rintro (h | h)
        · exact absurd h (by decide)
        · exact hnd 43 (by decide) h
      rw [this, after_self]
  unfold volume
  rw [lastIdx_append hdot]
  dsimp only
  rw [List.drop_left' rfl, if_pos (by
    unfold startsWith
    rw [List.isPrefixOf_iff_prefix]
    exact ⟨mid.map lower ++ sep :: dec n, by simp [lit]⟩), hb]
  dsimp only
  rw [List.length_map]
  unfold atoi
  have := atoll_dec n [] (by omega) (by simp)
  rw [List.append_nil] at this
  rw [this, Int.bmod_eq_of_le (by omega) (by omega)]

/-! ### Names with something behind them -/

/-- The first occurrence of the extension is the last one, or leaves a shorter text with it. -/
theorem after_par2 (g : Bytes) : ∀ (b r : Bytes), after (lit ".par2") (b ++ lit ".par2" ++ g) = some r →
    r = g ∨ ∃ b', r = b' ++ lit ".par2" ++ g ∧ b'.length < b.length := by
  intro b
  induction b with
  | nil =>
    intro r h
    rw [List.nil_append, after_self] at h
    injection h with h
    exact Or.inl h.symm
  | cons x b ih =>
    intro r h
    rw [List.cons_append, List.cons_append, after] at h
    by_cases hs : startsWith (lit ".par2") (x :: (b ++ lit ".par2" ++ g)) = true
    · rw [if_pos hs] at h
      injection h with h
      match b, hs, h with
      | [], hs, _ => simp [startsWith, lit, List.isPrefixOf] at hs
      | [_], hs, _ => simp [startsWith, lit, List.isPrefixOf] at hs
      | [_, _], hs, _ => simp [startsWith, lit, List.isPrefixOf] at hs
      | [_, _, _], hs, _ => simp [startsWith, lit, List.isPrefixOf] at hs
      | _ :: _ :: _ :: _ :: b', _, h =>
        refine Or.inr ⟨b', ?_, by simp only [List.length_cons]; omega⟩
        rw [← h]
        rfl
    · rw [if_neg hs] at h
      rcases ih r h with h | ⟨b', h1, h2⟩
      · exact Or.inl h
      · exact Or.inr ⟨b', h1, by rw [List.length_cons]; omega⟩

theorem after_par2_some (g b : Bytes) : ∃ r, after (lit ".par2") (b ++ lit ".par2" ++ g) = some r := by
  induction b with
  | nil => exact ⟨g, by rw [List.nil_append, after_self]⟩
  | cons x b ih =>
    rw [List.cons_append, List.cons_append, after]
    split
    · exact ⟨_, rfl⟩
    · exact ih

theorem lastRest_par2 {g : Bytes} (hg : after (lit ".par2") g = none) : ∀ (n : Nat) (b : Bytes), b.length < n →
    lastRest n (b ++ lit ".par2" ++ g) = g := by
  have stop : ∀ n, lastRest n g = g := by
    intro n
    cases n with
    | zero => rfl
    | succ n => rw [lastRest, hg]
  intro n
  induction n with
  | zero => intro b h; exact absurd h (by omega)
  | succ n ih =>
    intro b h
    obtain ⟨r, hr⟩ := after_par2_some g b
    rw [lastRest, hr]
    dsimp only
    rcases after_par2 g b r hr with rfl | ⟨b', rfl, h2⟩
    · exact stop n
    · exact ih b' (by omega)

/-- **C46.** While the name is not confirmed (it was taken from the subject), anything behind the last `.par2` does not
matter. -/
theorem parse_unconfirmed {base ext garbage : Bytes} (hext : ext.map lower = lit ".par2") (hb : base ≠ [])
    (hg : ¬ lit ".par2" <:+: garbage.map lower) (hl : (base ++ ext ++ garbage).length ≤ 1023) :
    parse false (base ++ ext ++ garbage) = parse true (base ++ ext) := by
  have hel : ext.length = 5 := by have := congrArg List.length hext; rwa [List.length_map] at this
  have hb2 := List.length_pos_iff.mpr hb
  rw [List.length_append, List.length_append] at hl
  have hnone : after (lit ".par2") (garbage.map lower) = none := by
    cases h : after (lit ".par2") (garbage.map lower) with
    | none => rfl
    | some r =>
      refine absurd ?_ hg
      have key : ∀ s r : Bytes, after (lit ".par2") s = some r → lit ".par2" <:+: s := by
        intro s
        induction s with
        | nil => intro r h; rw [after, if_neg (by decide)] at h; exact nomatch h
        | cons x s ih =>
          intro r h
          rw [after] at h
          by_cases hs : startsWith (lit ".par2") (x :: s) = true
          · unfold startsWith at hs
            rw [List.isPrefixOf_iff_prefix] at hs
            exact hs.isInfix
          · rw [if_neg hs] at h
            exact (ih r h).trans (List.suffix_cons x s).isInfix
      exact key _ _ h
  unfold parse
  rw [List.take_of_length_le (by rw [List.length_append, List.length_append]; omega), List.take_of_length_le (by rw [List.length_append]; omega)]
  have e : (base ++ ext ++ garbage).map lower = base.map lower ++ lit ".par2" ++ garbage.map lower := by
    rw [List.map_append, List.map_append, hext]
  have e2 : (base ++ ext).map lower = base.map lower ++ lit ".par2" := by rw [List.map_append, hext]
  rw [e, e2]
  have hl5 : (lit ".par2").length = 5 := rfl
  dsimp only
  rw [if_neg (by simp only [List.length_append, List.length_map]; omega), if_neg (by decide), if_neg (by simp only [List.length_append, List.length_map]; omega),
    if_pos rfl]
  have ht : trim (base.map lower ++ lit ".par2" ++ garbage.map lower) = base.map lower ++ lit ".par2" := by
    unfold trim
    rw [lastRest_par2 hnone _ _ (by simp only [List.length_append, List.length_map]; omega)]
    exact List.take_left' (by simp only [List.length_append, List.length_map]; omega)
  rw [ht]

example : parse false (lit "a.VOL03+4.PAR2\" yEnc") = some (1, 4) ∧ parse true (lit "a.b.par2") = some (3, 0) ∧
    ¬ lit ".par2" <:+: (lit "\" yEnc").map lower := by
  refine ⟨by decide +kernel, by decide +kernel, ?_⟩
  rintro ⟨a, b, h⟩
  have := congrArg List.length h
  have h46 : (46 : UInt8) ∈ (lit "\" yEnc").map lower := by rw [← h]; simp [lit]
  exact absurd h46 (by decide)

/-- **C46.** Volumes and main files belong together exactly if their base names are the same but for the case. -/
theorem same_collection {base1 base2 vol mid ext1 ext2 : Bytes} {sep : UInt8} {n : Nat}
    (hext1 : ext1.map lower = lit ".par2") (hext2 : ext2.map lower = lit ".par2") (hb : base1 ≠ []) (hl1 : base1.length ≤ 1018)
    (hv : ¬ LooksVolume base1) (hvol : vol.map lower = lit ".vol") (hmid : 46 ∉ mid ∧ 43 ∉ mid ∧ 45 ∉ mid) (hsep : sep = 43 ∨ sep = 45)
    (hn : n < 2 ^ 31) (hl2 : (base2 ++ vol ++ mid ++ sep :: dec n ++ ext2).length ≤ 1023) :
    same true (base1 ++ ext1) (base2 ++ vol ++ mid ++ sep :: dec n ++ ext2) = true ↔ base1.map lower = base2.map lower := by
  rw [same_def, parse_main hext1 hb hl1 hv, parse_vol hext2 hvol hmid hsep hn hl2]
  constructor
  · rintro ⟨x, y, h1, h2, h3, h4⟩
    injection h1 with h1
    injection h2 with h2
    subst h1 h2
    dsimp only at h3 h4
    rw [List.take_left' rfl, List.append_assoc, List.append_assoc, List.append_assoc, List.take_left' h3.symm] at h4
    exact h4
  · intro h
    have hlen : base1.length = base2.length := by have := congrArg List.length h; rwa [List.length_map, List.length_map] at this
    refine ⟨_, _, rfl, rfl, hlen, ?_⟩
    dsimp only
    rw [List.take_left' rfl, List.append_assoc, List.append_assoc, List.append_assoc, List.take_left' hlen.symm]
    exact h

example : same true (lit "Rar.par2") (lit "rAR.vol12+07.par2") = true ∧ same true (lit "Rar.par2") (lit "rARe.vol12+07.par2") = false := by
  decide +kernel

/-! ### The sets in a directory -/

theorem findMain_spec : ∀ (l found : List Bytes), (∀ x ∈ found, IsPar true x) →
    found.Pairwise (fun a b => same true a b = false) →
    (∀ x ∈ findMain l found, IsPar true x ∧ (x ∈ found ∨ x ∈ l)) ∧
    (findMain l found).Pairwise (fun a b => same true a b = false) ∧
    (∀ x ∈ found, x ∈ findMain l found) ∧
    (∀ x ∈ l, IsPar true x → ∃ y ∈ findMain l found, same true x y = true) := by
  intro l
  induction l with
  | nil => intro found h1 h2; exact ⟨fun x hx => ⟨h1 x hx, Or.inl hx⟩, h2, fun x hx => hx, fun x hx => nomatch hx⟩
  | cons f l ih =>
    intro found h1 h2
    rw [findMain]
    by_cases hc : ((parse true f).isSome && !found.any (fun g => same true f g)) = true
    · rw [if_pos hc]
      rw [Bool.and_eq_true, Bool.not_eq_true', List.any_eq_false] at hc
      obtain ⟨hp, hn⟩ := hc
      obtain ⟨k1, k2, k3, k4⟩ := ih (found ++ [f]) (by
          intro x hx
          rcases List.mem_append.mp hx with hx | hx
          · exact h1 x hx
          · rw [List.mem_singleton.mp hx]; exact hp)
        (by
          rw [List.pairwise_append]
          refine ⟨h2, List.pairwise_singleton _ _, ?_⟩
          intro a ha b hb
          rw [List.mem_singleton.mp hb]
          cases hs : same true a f with
          | false => rfl
          | true => exact absurd (same_symm hs) (hn a ha))
      refine ⟨?_, k2, fun x hx => k3 x (List.mem_append_left _ hx), ?_⟩
      · intro x hx
        obtain ⟨g1, g2⟩ := k1 x hx
        refine ⟨g1, ?_⟩
        rw [List.mem_append, List.mem_singleton] at g2
        rw [List.mem_cons]
        rcases g2 with (g | g) | g
        · exact Or.inl g
        · exact Or.inr (Or.inl g)
        · exact Or.inr (Or.inr g)
      · intro x hx hpx
        rcases List.mem_cons.mp hx with rfl | hx
        · exact ⟨x, k3 x (by simp), (same_refl_iff true x).mpr hpx⟩
        · exact k4 x hx hpx
    · rw [if_neg hc]
      obtain ⟨k1, k2, k3, k4⟩ := ih found h1 h2
      refine ⟨?_, k2, k3, ?_⟩
      · intro x hx
        obtain ⟨g1, g2⟩ := k1 x hx
        exact ⟨g1, g2.elim Or.inl (fun h => Or.inr (List.mem_cons_of_mem _ h))⟩
      · intro x hx hpx
        rcases List.mem_cons.mp hx with rfl | hx
        · unfold IsPar at hpx
          rw [hpx, Bool.true_and, Bool.not_eq_true', Bool.not_eq_false, List.any_eq_true] at hc
          obtain ⟨g, hg, hs⟩ := hc
          exact ⟨g, k3 g hg, hs⟩
        · exact k4 x hx hpx

/-- **C46.** For a directory with any files exactly one file of each set is found. -/
theorem one_of_each_set (l : List Bytes) :
    (∀ x ∈ findMain l [], x ∈ l ∧ IsPar true x) ∧
    (findMain l []).Pairwise (fun a b => same true a b = false) ∧
    (∀ x ∈ l, IsPar true x → ∃ y ∈ findMain l [], same true x y = true) := by
  obtain ⟨k1, k2, -, k4⟩ := findMain_spec l [] (fun x hx => nomatch hx) List.Pairwise.nil
  refine ⟨fun x hx => ?_, k2, k4⟩
  obtain ⟨g1, g2⟩ := k1 x hx
  exact ⟨g2.elim (fun h => nomatch h) id, g1⟩

example : findMain [lit "a.vol1+2.par2", lit "b.rar", lit "A.par2", lit "b.par2"] [] = [lit "a.vol1+2.par2", lit "b.par2"] := by
  decide +kernel

end Verif.ParName
