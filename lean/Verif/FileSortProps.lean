import Verif.FileSort
import Verif.ParNameProps
/-! C112: sorting the files of an entry. -/
namespace Verif.FileSort
open CStr

/-! ### Specification -/

/-- The order of texts: the first byte which differs decides, and a text comes before its continuations. -/
def TextLt (a b : Bytes) : Prop := (∃ t, t ≠ [] ∧ b = a ++ t) ∨ ∃ (u : Bytes) (x y : UInt8) (v w : Bytes), a = u ++ x :: v ∧ b = u ++ y :: w ∧ x.toNat < y.toNat

/-- The first part and a further part of an archive in the old naming. -/
def Parts (a b : Bytes) : Prop := ∃ (s : Bytes) (d e : UInt8), isDigit d = true ∧ isDigit e = true ∧ a = s ++ lit ".rar" ∧ b = s ++ lit ".r" ++ [d, e]

/-- Par-files of one collection. -/
def OneSet (x y : F) : Prop := ParName.same (x.confirmed && y.confirmed) x.name y.name = true

/-- `x` may stand before `y`: other files before par-files; `.rar` before `.r00`; par-files of a collection by size; else by name. -/
def MayPrecede (x y : F) : Prop :=
  (x.par = true → y.par = true) ∧
  (x.par = false → y.par = false → ¬ Parts y.name x.name ∧ (Parts x.name y.name ∨ ¬ TextLt y.name x.name)) ∧
  (x.par = true → y.par = true → (OneSet x y → x.size ≤ y.size) ∧ (¬ OneSet x y → ¬ TextLt y.name x.name))

/-- Nothing gets between the parts of an archive by its name, nor between par-files of a collection, and it is known for all par-files
or for none that their names are the right ones. -/
structure Regular (l : List F) : Prop where
  rar : ∀ x ∈ l, ∀ y ∈ l, ∀ z ∈ l, x.par = false → y.par = false → z.par = false → Parts x.name y.name → TextLt y.name z.name → TextLt z.name x.name → Parts x.name z.name
  confirmed : ∀ x ∈ l, ∀ y ∈ l, x.par = true → y.par = true → x.confirmed = y.confirmed
  sets : ∀ x ∈ l, ∀ y ∈ l, ∀ z ∈ l, x.par = true → y.par = true → z.par = true → OneSet x y → TextLt x.name z.name → TextLt z.name y.name → OneSet x z

/-! ### The order of names -/

theorem strLt_nil (b : Bytes) : strLt [] b = true ↔ b ≠ [] := by
  cases b <;> simp [strLt, Subject.greater]

theorem strLt_cons (x y : UInt8) (a b : Bytes) : strLt (x :: a) (y :: b) = if y = x then strLt a b else decide (x.toNat < y.toNat) := rfl

theorem strLt_iff : ∀ (a b : Bytes), strLt a b = true ↔ TextLt a b
  | [], b => by
    rw [strLt_nil]
    constructor
    · intro h; exact Or.inl ⟨b, h, rfl⟩
    · rintro (⟨t, h, rfl⟩ | ⟨u, x, y, v, w, h, _⟩)
      · exact h
      · exact absurd h (by simp)
  | x :: a, [] => by
    constructor
    · intro h; exact nomatch h
    · rintro (⟨t, h, e⟩ | ⟨u, x, y, v, w, _, h, _⟩)
      · exact nomatch e
      · exact absurd h (by simp)
  | x :: a, y :: b => by
    rw [strLt_cons]
    by_cases c : y = x
    · subst c
      rw [if_pos rfl, strLt_iff a b]
      constructor
      · rintro (⟨t, h, rfl⟩ | ⟨u, x, z, v, w, rfl, rfl, h⟩)
        · exact Or.inl ⟨t, h, rfl⟩
        · exact Or.inr ⟨y :: u, x, z, v, w, rfl, rfl, h⟩
      · rintro (⟨t, h, e⟩ | ⟨u, x, z, v, w, h1, h2, h⟩)
        · exact Or.inl ⟨t, h, (List.cons.inj e).2⟩
        · cases u with
          | nil =>
            rw [List.nil_append] at h1 h2
            have e1 := (List.cons.inj h1).1
            have e2 := (List.cons.inj h2).1
            rw [← e1, ← e2] at h
            omega
          | cons k u =>
            exact Or.inr ⟨u, x, z, v, w, (List.cons.inj h1).2, (List.cons.inj h2).2, h⟩
    · rw [if_neg c, decide_eq_true_iff]
      constructor
      · intro h; exact Or.inr ⟨[], x, y, a, b, rfl, rfl, h⟩
      · rintro (⟨t, h, e⟩ | ⟨u, p, q, v, w, h1, h2, h⟩)
        · exact absurd (List.cons.inj e).1 c
        · cases u with
          | nil =>
            rw [List.nil_append] at h1 h2
            rw [(List.cons.inj h1).1, (List.cons.inj h2).1]
            exact h
          | cons k u => exact absurd ((List.cons.inj h2).1.trans (List.cons.inj h1).1.symm) c

theorem strLt_irrefl : ∀ a : Bytes, strLt a a = false
  | [] => rfl
  | x :: a => by rw [strLt_cons, if_pos rfl]; exact strLt_irrefl a

theorem strLt_total : ∀ (a b : Bytes), a ≠ b → strLt a b = false → strLt b a = true
  | [], [], h, _ => absurd rfl h
  | [], y :: b, _, h => nomatch h
  | x :: a, [], _, _ => rfl
  | x :: a, y :: b, hne, h => by
    rw [strLt_cons] at *
    by_cases c : y = x
    · subst c
      rw [if_pos rfl] at *
      exact strLt_total a b (fun e => hne (by rw [e])) h
    · rw [if_neg c] at h
      rw [if_neg (fun e => c e.symm)]
      have := of_decide_eq_false h
      have hne' : x.toNat ≠ y.toNat := fun e => c (UInt8.toNat_inj.1 e).symm
      exact decide_eq_true (by omega)

theorem strLt_trans : ∀ (a b c : Bytes), strLt a b = true → strLt b c = true → strLt a c = true
  | [], b, c, h1, h2 => by
    rw [strLt_nil] at *
    rintro rfl
    cases b with
    | nil => exact h1 rfl
    | cons y b => exact nomatch h2
  | x :: a, [], c, h1, _ => nomatch h1
  | x :: a, y :: b, [], _, h2 => nomatch h2
  | x :: a, y :: b, z :: c, h1, h2 => by
    rw [strLt_cons] at *
    by_cases e1 : y = x
    · subst e1
      rw [if_pos rfl] at h1
      by_cases e2 : z = y
      · rw [if_pos e2] at *
        exact strLt_trans a b c h1 h2
      · rw [if_neg e2] at *
        exact h2
    · rw [if_neg e1, decide_eq_true_iff] at h1
      by_cases e2 : z = y
      · subst e2
        rw [if_neg e1]
        exact decide_eq_true h1
      · rw [if_neg e2, decide_eq_true_iff] at h2
        rw [if_neg (fun e => by rw [e] at h2; omega)]
        exact decide_eq_true (by omega)

theorem strLt_asymm {a b : Bytes} (h : strLt a b = true) : strLt b a = false := by
  cases c : strLt b a with
  | false => rfl
  | true => have := strLt_trans _ _ _ h c; rw [strLt_irrefl] at this; exact nomatch this

/-! ### Parts of archives -/

theorem lastIdx_drop : ∀ (s : Bytes) (i : Nat), FileName.lastIdx 46 s = some i → i < s.length
  | [], i, h => nomatch h
  | b :: s, i, h => by
    unfold FileName.lastIdx at h
    cases g : FileName.lastIdx 46 s with
    | some j =>
      rw [g] at h
      dsimp only at h
      have := lastIdx_drop s j g
      have e := Option.some.inj h
      simp
      omega
    | none =>
      rw [g] at h
      dsimp only at h
      split at h
      · have e := Option.some.inj h
        simp
        omega
      · exact nomatch h

theorem ext_four {s : Bytes} (h : (ext s).length = 4) : s.take (s.length - 4) ++ ext s = s := by
  unfold ext at *
  cases g : FileName.lastIdx 46 s with
  | none => rw [g] at h; exact nomatch h
  | some i =>
    rw [g] at h
    dsimp only at *
    rw [List.length_drop] at h
    have := lastIdx_drop s i g
    rw [show s.length - 4 = i by omega, List.take_append_drop]

theorem digit_ne_dot {d : UInt8} (h : isDigit d = true) : d ≠ 46 := by
  rintro rfl
  exact absurd h (by decide)

theorem ext_append (s : Bytes) (e : Bytes) (h : (46 : UInt8) ∉ e) : ext (s ++ 46 :: e) = 46 :: e := by
  unfold ext
  rw [ParName.lastIdx_append h]
  simp

theorem rarPair_iff (a b : Bytes) : rarPair a b = true ↔ Parts a b := by
  unfold rarPair Parts
  simp only [Bool.and_eq_true, beq_iff_eq]
  constructor
  · rintro ⟨⟨⟨⟨⟨h1, h2⟩, h3⟩, h4⟩, h5⟩, h6⟩
    have ea := ext_four h2
    have eb := ext_four h3
    have hb : ∃ d e, ext b = lit ".r" ++ [d, e] ∧ isDigit d = true ∧ isDigit e = true := by
      have hdot : ∀ x t, ext b = x :: t → x = 46 := by
        intro x t h
        unfold ext at h
        clear h3 eb h6
        revert h
        cases g : FileName.lastIdx 46 b with
        | none => intro h; exact nomatch h
        | some i =>
          dsimp only
          intro h
          clear h1 h4
          induction b generalizing i with
          | nil => exact nomatch g
          | cons y b ih =>
            unfold FileName.lastIdx at g
            cases g' : FileName.lastIdx 46 b with
            | some j =>
              rw [g'] at g
              dsimp only at g
              have e := Option.some.inj g
              subst e
              exact ih j g' h
            | none =>
              rw [g'] at g
              dsimp only at g
              split at g
              · next c =>
                have e := Option.some.inj g
                subst e
                rw [List.drop_zero] at h
                rw [← (List.cons.inj h).1]
                exact c
              · exact nomatch g
      match hx : ext b, h6 with
      | [x, r, d, e], h6 =>
        simp only [isRNum, Bool.and_eq_true, beq_iff_eq] at h6
        have e1 := hdot _ _ hx
        refine ⟨d, e, ?_, h6.1.2, h6.2⟩
        rw [e1, h6.1.1]
        rfl
    obtain ⟨d, e, hb, hd, he⟩ := hb
    refine ⟨a.take (a.length - 4), d, e, hd, he, ?_, ?_⟩
    · rw [← h5]
      exact ea.symm
    · rw [List.append_assoc, ← hb, h4, h1]
      exact eb.symm
  · rintro ⟨s, d, e, hd, he, rfl, rfl⟩
    have hea : ext (s ++ lit ".rar") = lit ".rar" := ext_append s [114, 97, 114] (by decide)
    have heb : ext (s ++ lit ".r" ++ [d, e]) = lit ".r" ++ [d, e] := by
      rw [List.append_assoc]
      exact ext_append s [114, d, e] (by
        simp only [List.mem_cons, List.not_mem_nil, or_false, not_or]
        exact ⟨by decide, fun h => digit_ne_dot hd h.symm, fun h => digit_ne_dot he h.symm⟩)
    rw [hea, heb]
    have hl : (s ++ lit ".rar").length - 4 = s.length := by
      rw [List.length_append]
      exact Nat.add_sub_cancel _ 4
    rw [hl, List.append_assoc, List.take_left, List.take_left]
    refine ⟨⟨⟨⟨⟨?_, by decide⟩, rfl⟩, rfl⟩, rfl⟩, ?_⟩
    · rw [List.length_append, List.length_append]; rfl
    · simp [isRNum, lit, hd, he]

theorem parts_cmp {a b : Bytes} (h : Parts a b) : strLt b a = true := by
  obtain ⟨s, d, e, hd, _, rfl, rfl⟩ := h
  rw [strLt_iff]
  refine Or.inr ⟨s ++ lit ".r", d, 97, [e], [114], by simp, by rw [List.append_assoc]; rfl, ?_⟩
  have : ∀ n : Fin 256, isDigit (UInt8.ofNat n.val) = true → (UInt8.ofNat n.val).toNat < 97 := by decide +kernel
  have h2 := this ⟨d.toNat, d.toNat_lt⟩
  rw [show UInt8.ofNat d.toNat = d from UInt8.ofNat_toNat] at h2
  exact h2 hd

theorem parts_first {a b c : Bytes} (h : Parts a b) : ¬ Parts b c := by
  obtain ⟨s, d, e, hd, _, rfl, rfl⟩ := h
  rintro ⟨s', d', e', _, _, h, _⟩
  rw [List.append_assoc] at h
  have h1 := (List.append_inj' h rfl).2
  have h2 : d = 97 := by
    simp [lit] at h1
    exact h1.1
  rw [h2] at hd
  exact absurd hd (by decide)

theorem parts_eq {a b c : Bytes} (h : Parts a b) (h' : Parts c b) : a = c := by
  obtain ⟨s, d, e, _, _, rfl, rfl⟩ := h
  obtain ⟨s', d', e', _, _, rfl, h⟩ := h'
  rw [List.append_assoc, List.append_assoc] at h
  rw [(List.append_inj' h rfl).1]

/-! ### Files which are no par-files -/

/-- The comparison of two names of files which are no par-files. -/
def nameLess (a b : Bytes) : Bool := if rarPair a b then true else if rarPair b a then false else strLt a b

theorem nameLess_iff (a b : Bytes) : nameLess a b = true ↔ Parts a b ∨ (¬ Parts b a ∧ strLt a b = true) := by
  unfold nameLess
  by_cases h1 : Parts a b
  · rw [if_pos ((rarPair_iff a b).2 h1)]
    simp [h1]
  · rw [if_neg (fun c => h1 ((rarPair_iff a b).1 c))]
    by_cases h2 : Parts b a
    · rw [if_pos ((rarPair_iff b a).2 h2)]
      simp [h1, h2]
    · rw [if_neg (fun c => h2 ((rarPair_iff b a).1 c))]
      simp [h1, h2]

theorem nameLess_irrefl (a : Bytes) : nameLess a a = false := by
  rw [← Bool.not_eq_true, nameLess_iff]
  rintro (h | ⟨_, h⟩)
  · exact parts_first h h
  · rw [strLt_irrefl] at h; exact nomatch h

theorem nameLess_asymm {a b : Bytes} (h : nameLess a b = true) : nameLess b a = false := by
  rw [← Bool.not_eq_true]
  intro h'
  rw [nameLess_iff] at h h'
  rcases h with h | ⟨h1, h2⟩
  · rcases h' with h' | ⟨h1', _⟩
    · exact parts_first h h'
    · exact h1' h
  · rcases h' with h' | ⟨_, h2'⟩
    · exact h1 h'
    · rw [strLt_asymm h2] at h2'; exact nomatch h2'

theorem nameLess_total {a b : Bytes} (hne : a ≠ b) (h : nameLess a b = false) : nameLess b a = true := by
  rw [← Bool.not_eq_true, nameLess_iff, not_or] at h
  rw [nameLess_iff]
  by_cases c : Parts b a
  · exact Or.inl c
  · refine Or.inr ⟨h.1, strLt_total a b hne ?_⟩
    rw [← Bool.not_eq_true]
    exact fun d => h.2 ⟨c, d⟩

/-- There is no circle through the first part of an archive and another one. -/
theorem no_circle {p q r : Bytes} (hr : Parts p q → strLt q r = true → strLt r p = true → Parts p r) (h1 : Parts p q) (h2 : nameLess q r = true) (h3 : nameLess r p = true) : False := by
  rw [nameLess_iff] at h2 h3
  have hqr : strLt q r = true := by
    rcases h2 with h | h
    · exact absurd h (parts_first h1)
    · exact h.2
  rcases h3 with h | h
  · exact parts_first h h1
  · exact h.1 (hr h1 hqr h.2)

/-! ### The comparison of files -/

theorem less_plain {a b : F} (ha : a.par = false) (hb : b.par = false) : less a b = nameLess a.name b.name := by
  unfold less nameLess
  rw [ha, hb]
  rfl

theorem less_set {a b : F} (ha : a.par = true) (hb : b.par = true) (h : OneSet a b) : less a b = decide (a.size < b.size) := by
  unfold less
  rw [ha, hb]
  simp only [Bool.not_true, Bool.and_self, Bool.false_eq_true, if_false, Bool.true_and]
  unfold OneSet at h
  rw [if_pos h]

theorem less_par {a b : F} (ha : a.par = true) (hb : b.par = true) (h : ¬ OneSet a b) : less a b = strLt a.name b.name := by
  unfold less
  rw [ha, hb]
  simp only [Bool.not_true, Bool.and_self, Bool.false_eq_true, if_false, Bool.true_and]
  unfold OneSet at h
  rw [if_neg h]
  rfl

theorem less_mixed {a b : F} (ha : a.par = false) (hb : b.par = true) : less a b = true ∧ less b a = false := by
  unfold less
  rw [ha, hb]
  exact ⟨rfl, rfl⟩

theorem oneSet_symm {a b : F} (h : OneSet a b) : OneSet b a := by
  unfold OneSet at *
  rw [Bool.and_comm]
  exact ParName.same_symm h

theorem oneSet_trans {a b c : F} (h1 : a.confirmed = b.confirmed) (h2 : b.confirmed = c.confirmed) (h : OneSet a b) (h' : OneSet b c) : OneSet a c := by
  unfold OneSet at *
  rw [h1, h2, Bool.and_self] at *
  exact ParName.same_trans h h'

theorem oneSet_name {a b c : F} (h1 : a.confirmed = b.confirmed) (h : OneSet a c) (hc : a.confirmed = c.confirmed) (e : a.name = b.name) : OneSet a b := by
  have := oneSet_trans hc hc.symm h (oneSet_symm h)
  unfold OneSet at *
  rw [← h1, ← e]
  exact this

theorem less_asymm {x y : F} (h : less x y = true) : less y x = false := by
  cases hx : x.par with
  | false =>
    cases hy : y.par with
    | false => rw [less_plain hx hy] at h; rw [less_plain hy hx]; exact nameLess_asymm h
    | true => exact (less_mixed hx hy).2
  | true =>
    cases hy : y.par with
    | false => rw [(less_mixed hy hx).2] at h; exact nomatch h
    | true =>
      by_cases c : OneSet x y
      · rw [less_set hx hy c, decide_eq_true_iff] at h
        rw [less_set hy hx (oneSet_symm c)]
        exact decide_eq_false (by omega)
      · rw [less_par hx hy c] at h
        rw [less_par hy hx (fun d => c (oneSet_symm d))]
        exact strLt_asymm h

/-- In a regular list the comparison can be split at every file. -/
theorem less_split {l : List F} (hl : Regular l) {x y z : F} (hx : x ∈ l) (hy : y ∈ l) (hz : z ∈ l) (h : less x z = true) : less x y = true ∨ less y z = true := by
  cases px : x.par with
  | false =>
    cases py : y.par with
    | true => exact Or.inl (less_mixed px py).1
    | false =>
      cases pz : z.par with
      | true => exact Or.inr (less_mixed py pz).1
      | false =>
        rw [less_plain px pz] at h
        rw [less_plain px py, less_plain py pz]
        by_cases e1 : x.name = y.name
        · right; rw [← e1]; exact h
        · by_cases e2 : y.name = z.name
          · left; rw [e2]; exact h
          · refine Classical.byContradiction fun hn => ?_
            rw [not_or, Bool.not_eq_true, Bool.not_eq_true] at hn
            have hyx := nameLess_total e1 hn.1
            have hzy := nameLess_total e2 hn.2
            -- x < z < y < x
            have R := hl.rar
            have R' : ∀ a ∈ l, ∀ b ∈ l, ∀ c ∈ l, a.par = false → b.par = false → c.par = false → Parts a.name b.name → strLt b.name c.name = true → strLt c.name a.name = true → Parts a.name c.name :=
              fun a ha b hb c hc h1 h2 h3 h4 h5 h6 => R a ha b hb c hc h1 h2 h3 h4 ((strLt_iff _ _).1 h5) ((strLt_iff _ _).1 h6)
            have k1 := (nameLess_iff _ _).1 h
            have k2 := (nameLess_iff _ _).1 hzy
            have k3 := (nameLess_iff _ _).1 hyx
            rcases k1 with k1 | k1
            · exact no_circle (R' x hx z hz y hy px pz py) k1 hzy hyx
            · rcases k2 with k2 | k2
              · exact no_circle (R' z hz y hy x hx pz py px) k2 hyx h
              · rcases k3 with k3 | k3
                · exact no_circle (R' y hy x hx z hz py px pz) k3 h hzy
                · have := strLt_trans _ _ _ (strLt_trans _ _ _ k1.2 k2.2) k3.2
                  rw [strLt_irrefl] at this
                  exact nomatch this
  | true =>
    cases pz : z.par with
    | false => rw [(less_mixed pz px).2] at h; exact nomatch h
    | true =>
      cases py : y.par with
      | false => exact Or.inr (less_mixed py pz).1
      | true =>
        have cxy := hl.confirmed x hx y hy px py
        have cyz := hl.confirmed y hy z hz py pz
        have cxz := hl.confirmed x hx z hz px pz
        have S : ∀ a ∈ l, ∀ b ∈ l, ∀ c ∈ l, a.par = true → b.par = true → c.par = true → OneSet a b → strLt a.name c.name = true → strLt c.name b.name = true → OneSet a c :=
          fun a ha b hb c hc h1 h2 h3 h4 h5 h6 => hl.sets a ha b hb c hc h1 h2 h3 h4 ((strLt_iff _ _).1 h5) ((strLt_iff _ _).1 h6)
        by_cases sxz : OneSet x z
        · rw [less_set px pz sxz, decide_eq_true_iff] at h
          by_cases sxy : OneSet x y
          · have syz := oneSet_trans cxy.symm cxz (oneSet_symm sxy) sxz
            rw [less_set px py sxy, less_set py pz syz, decide_eq_true_iff, decide_eq_true_iff]
            omega
          · have syz : ¬ OneSet y z := fun c => sxy (oneSet_trans cxz cyz.symm sxz (oneSet_symm c))
            rw [less_par px py sxy, less_par py pz syz]
            have e1 : x.name ≠ y.name := fun e => sxy (oneSet_name cxy sxz cxz e)
            have e2 : y.name ≠ z.name := fun e => syz (oneSet_symm (oneSet_name cyz.symm (oneSet_symm sxz) cxz.symm e.symm))
            refine Classical.byContradiction fun hn => ?_
            rw [not_or, Bool.not_eq_true, Bool.not_eq_true] at hn
            exact syz (oneSet_symm (S z hz x hx y hy pz px py (oneSet_symm sxz) (strLt_total _ _ e2 hn.2) (strLt_total _ _ e1 hn.1)))
        · rw [less_par px pz sxz] at h
          by_cases sxy : OneSet x y
          · have syz : ¬ OneSet y z := fun c => sxz (oneSet_trans cxy cyz sxy c)
            right
            rw [less_par py pz syz]
            refine Classical.byContradiction fun hn => ?_
            rw [Bool.not_eq_true] at hn
            have e2 : y.name ≠ z.name := fun e => syz (oneSet_name cyz (oneSet_symm sxy) cxy.symm e)
            exact sxz (S x hx y hy z hz px py pz sxy h (strLt_total _ _ e2 hn))
          · by_cases syz : OneSet y z
            · left
              rw [less_par px py sxy]
              refine Classical.byContradiction fun hn => ?_
              rw [Bool.not_eq_true] at hn
              have e1 : x.name ≠ y.name := fun e => sxy (oneSet_symm (oneSet_name cxy.symm syz cyz e.symm))
              exact sxy (oneSet_symm (S y hy z hz x hx py pz px syz (strLt_total _ _ e1 hn) h))
            · rw [less_par px py sxy, less_par py pz syz]
              by_cases e1 : x.name = y.name
              · right; rw [← e1]; exact h
              · cases c : strLt x.name y.name with
                | true => exact Or.inl rfl
                | false => exact Or.inr (strLt_trans _ _ _ (strLt_total _ _ e1 c) h)

/-- C112: in a regular list the comparison is an order, so that sorting is defined. -/
theorem order_defined {l : List F} (hl : Regular l) : Weak less l where
  irrefl x hx := by
    cases h : less x x with
    | false => rfl
    | true => have := less_asymm h; rw [h] at this; exact nomatch this
  trans x hx y hy z hz h1 h2 := by
    rcases less_split hl hx hz hy h1 with h | h
    · exact h
    · rw [less_asymm h] at h2; exact nomatch h2
  incomparable x hx y hy z hz h1 h2 h3 h4 := by
    constructor
    · cases h : less x z with
      | false => rfl
      | true =>
        rcases less_split hl hx hy hz h with c | c
        · rw [c] at h1; exact nomatch h1
        · rw [c] at h3; exact nomatch h3
    · cases h : less z x with
      | false => rfl
      | true =>
        rcases less_split hl hz hy hx h with c | c
        · rw [c] at h4; exact nomatch h4
        · rw [c] at h2; exact nomatch h2

/-- What is not less than an earlier file may stand behind it. -/
theorem may_precede {x y : F} (h : less y x = false) : MayPrecede x y := by
  refine ⟨fun px => ?_, fun px py => ?_, fun px py => ⟨fun s => ?_, fun s => ?_⟩⟩
  · cases py : y.par with
    | true => rfl
    | false => rw [(less_mixed py px).1] at h; exact nomatch h
  · rw [less_plain py px, ← Bool.not_eq_true, nameLess_iff, not_or] at h
    refine ⟨h.1, ?_⟩
    by_cases c : Parts x.name y.name
    · exact Or.inl c
    · exact Or.inr fun d => h.2 ⟨c, (strLt_iff _ _).2 d⟩
  · rw [less_set py px (oneSet_symm s)] at h
    have := of_decide_eq_false h
    omega
  · rw [less_par py px (fun c => s (oneSet_symm c)), ← Bool.not_eq_true, strLt_iff] at h
    exact h

/-- C112 (partial): sorting a regular list keeps the files and gives the order which is wanted. -/
theorem files_sorted_partial {l r : List F} (hl : Regular l) (h : SortResult l r) : r.Perm l ∧ r.Pairwise MayPrecede := by
  obtain ⟨h1, h2⟩ := h (order_defined hl)
  exact ⟨h1, h2.imp may_precede⟩

/-- C112 (refutes): a file whose name comes between those of two parts of an archive makes the comparison run in a circle, so that sorting is
undefined. -/
theorem rar_circle {l : List F} {x y z : F} (hx : x ∈ l) (hy : y ∈ l) (hz : z ∈ l) (px : x.par = false) (py : y.par = false) (pz : z.par = false)
    (h1 : Parts x.name y.name) (h2 : TextLt y.name z.name) (h3 : TextLt z.name x.name) (h4 : ¬ Parts x.name z.name) : ¬ Weak less l := by
  intro w
  rw [← strLt_iff] at h2 h3
  have k1 : less x y = true := by rw [less_plain px py, nameLess_iff]; exact Or.inl h1
  have k2 : less y z = true := by
    rw [less_plain py pz, nameLess_iff]
    refine Or.inr ⟨fun c => ?_, h2⟩
    have e := parts_eq h1 c
    rw [e, strLt_irrefl] at h3
    exact nomatch h3
  have k3 : less z x = true := by rw [less_plain pz px, nameLess_iff]; exact Or.inr ⟨h4, h3⟩
  have := w.trans x hx y hy z hz k1 k2
  rw [less_asymm this] at k3
  exact nomatch k3

/-- C112 (refutes): with three-digit parts sorting is undefined, whatever the name of the archive. -/
theorem three_digits_undefined (s : Bytes) (n : Nat) : ∃ l : List F, l.map (·.name) = [s ++ lit ".rar", s ++ lit ".r10", s ++ lit ".r100"] ∧ (∀ f ∈ l, f.par = false ∧ f.size = n) ∧ ¬ Weak less l := by
  let f (m : Bytes) : F := { name := m, size := n, par := false, confirmed := true }
  refine ⟨[f (s ++ lit ".rar"), f (s ++ lit ".r10"), f (s ++ lit ".r100")], rfl, ?_, ?_⟩
  · intro g hg
    simp only [List.mem_cons, List.not_mem_nil, or_false] at hg
    rcases hg with rfl | rfl | rfl <;> exact ⟨rfl, rfl⟩
  · refine rar_circle (x := f (s ++ lit ".rar")) (y := f (s ++ lit ".r10")) (z := f (s ++ lit ".r100")) (by simp) (by simp) (by simp) rfl rfl rfl
      ⟨s, 49, 48, by decide, by decide, rfl, by rw [List.append_assoc]; rfl⟩ (Or.inl ⟨[48], by simp, by rw [List.append_assoc]; rfl⟩)
      (Or.inr ⟨s ++ lit ".r", 49, 97, [48, 48], [114], by rw [List.append_assoc]; rfl, by rw [List.append_assoc]; rfl, by decide⟩) ?_
    rintro ⟨s', d, e, _, _, h1, h2⟩
    have e1 := List.append_cancel_right h1
    subst e1
    have := congrArg List.length h2
    simp [lit, f] at this

/-- C112 (refutes): a par-file of another collection whose name comes between those of a large and a small volume makes the comparison run
in a circle. -/
theorem par_circle {l : List F} {x y z : F} (hx : x ∈ l) (hy : y ∈ l) (hz : z ∈ l) (px : x.par = true) (py : y.par = true) (pz : z.par = true)
    (h1 : OneSet x y) (hs : y.size < x.size) (h2 : TextLt x.name z.name) (h3 : TextLt z.name y.name) (h4 : ¬ OneSet x z) (h5 : ¬ OneSet z y) : ¬ Weak less l := by
  intro w
  rw [← strLt_iff] at h2 h3
  have k1 : less x z = true := by rw [less_par px pz h4]; exact h2
  have k2 : less z y = true := by rw [less_par pz py h5]; exact h3
  have k3 : less y x = true := by rw [less_set py px (oneSet_symm h1)]; exact decide_eq_true hs
  have := w.trans x hx z hz y hy k1 k2
  rw [less_asymm this] at k3
  exact nomatch k3

/-! ### Examples -/

def exF (name : String) (size : Nat) (par : Bool) : F := { name := lit name, size := size, par := par, confirmed := true }

def exL : List F :=
  [exF "show.vol1+2.par2" 80 true, exF "show.r01" 500 false, exF "show.nfo" 1 false, exF "show.par2" 5 true, exF "show.rar" 500 false, exF "show.r00" 500 false,
   exF "show.vol0+1.par2" 40 true, exF "show.sfv" 1 false]

def exR : List F :=
  [exF "show.nfo" 1 false, exF "show.rar" 500 false, exF "show.r00" 500 false, exF "show.r01" 500 false, exF "show.sfv" 1 false, exF "show.par2" 5 true,
   exF "show.vol0+1.par2" 40 true, exF "show.vol1+2.par2" 80 true]

/-- The condition can be evaluated. -/
def regular (l : List F) : Bool :=
  l.all (fun x => l.all fun y => l.all fun z => x.par || y.par || z.par || !rarPair x.name y.name || !strLt y.name z.name || !strLt z.name x.name || rarPair x.name z.name) &&
  l.all (fun x => l.all fun y => !x.par || !y.par || x.confirmed == y.confirmed) &&
  l.all (fun x => l.all fun y => l.all fun z => !x.par || !y.par || !z.par || !ParName.same (x.confirmed && y.confirmed) x.name y.name || !strLt x.name z.name || !strLt z.name y.name ||
    ParName.same (x.confirmed && z.confirmed) x.name z.name)

theorem regular_of {l : List F} (h : regular l = true) : Regular l := by
  unfold regular at h
  simp only [Bool.and_eq_true, List.all_eq_true, Bool.or_eq_true, Bool.not_eq_true', beq_iff_eq] at h
  refine ⟨fun x hx y hy z hz px py pz h1 h2 h3 => ?_, fun x hx y hy px py => ?_, fun x hx y hy z hz px py pz h1 h2 h3 => ?_⟩
  · have := h.1.1 x hx y hy z hz
    rw [px, py, pz, (rarPair_iff _ _).2 h1, (strLt_iff _ _).2 h2, (strLt_iff _ _).2 h3, rarPair_iff] at this
    simpa using this
  · have := h.1.2 x hx y hy
    rw [px, py] at this
    simpa using this
  · have := h.2 x hx y hy z hz
    unfold OneSet at h1
    rw [px, py, pz, h1, (strLt_iff _ _).2 h2, (strLt_iff _ _).2 h3] at this
    simpa [OneSet] using this

example : Regular exL := regular_of (by decide +kernel)
example : SortResult exL exR := fun _ => ⟨by decide +kernel, by decide +kernel⟩
example : ¬ Weak less [exF "Show.vol3+4.par2" 80 true, exF "Zoo.par2" 3 true, exF "show.vol0+1.par2" 40 true] :=
  par_circle (x := exF "Show.vol3+4.par2" 80 true) (y := exF "show.vol0+1.par2" 40 true) (z := exF "Zoo.par2" 3 true) (by simp) (by simp) (by simp) rfl rfl rfl
    (by unfold OneSet; decide +kernel) (by decide) ((strLt_iff _ _).1 (by decide +kernel)) ((strLt_iff _ _).1 (by decide +kernel)) (by unfold OneSet; decide +kernel) (by unfold OneSet; decide +kernel)

end Verif.FileSort
