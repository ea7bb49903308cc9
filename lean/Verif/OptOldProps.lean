import Verif.OptLoadProps
import Verif.TextProps
/-
Options and values of earlier versions (C99).
-/
namespace Verif.OptStore
open CStr

theorem eqNoCase_congr {n m : Bytes} (h : Same n m) (x : Bytes) : Rpc.eqNoCase n x = Rpc.eqNoCase m x := by
  unfold Rpc.eqNoCase
  rw [show List.map WildMask.lower n = List.map WildMask.lower m from h]

theorem eqNoCase_take {n m : Bytes} (h : Same n m) (k : Nat) (x : Bytes) :
    Rpc.eqNoCase (n.take k) x = Rpc.eqNoCase (m.take k) x := by
  unfold Rpc.eqNoCase
  rw [List.map_take, List.map_take, show List.map WildMask.lower n = List.map WildMask.lower m from h]

theorem afterNoCase_none {n m w : Bytes} (h : Same n m) (g : Rpc.eqNoCase (m.take w.length) w = false) :
    afterNoCase w n = none := by
  unfold afterNoCase
  rw [eqNoCase_take h, g]; rfl

/-- Decoding was switched on, today raw articles are. -/
theorem convert_decode (n v : Bytes) (h : Same n (lit "Decode")) :
    convertOld n v = (lit "RawArticle", if Same v (lit "no") then lit "yes" else lit "no") := by
  have key := eqNoCase_congr h
  have c1 : afterNoCase (lit "Category") n = none := afterNoCase_none h (by decide)
  have f1 : afterNoCase (lit "Feed") n = none := afterNoCase_none h (by decide)
  have hv : (if Rpc.eqNoCase v (lit "no") = true then lit "yes" else lit "no") =
      if Same v (lit "no") then lit "yes" else lit "no" := by
    by_cases g : Same v (lit "no")
    · rw [if_pos g, if_pos ((same_iff _ _).2 g)]
    · rw [if_neg g, if_neg (fun k => g ((same_iff _ _).1 k))]
  rw [← hv]
  simp (decide := true) only [convertOld, newNames, oldNames1, oldNames2, oldNames3, List.foldl_cons,
    List.foldl_nil, key, if_true, if_false, oldValue, false_and, oldCategory, oldFeed, c1, f1, oldBuffer,
    oldDecode, oldLog, Option.isSome_none, Bool.false_eq_true]

theorem convert_value (n v : Bytes) (t : String) (ht : t = "ParCheck" ∨ t = "ParScan") (h : Same n (lit t)) :
    convertOld n v = (n, oldValue n v) := by
  rcases ht with rfl | rfl
  · have key := eqNoCase_congr h
    have c1 : afterNoCase (lit "Category") n = none := afterNoCase_none h (by decide)
    have f1 : afterNoCase (lit "Feed") n = none := afterNoCase_none h (by decide)
    simp (decide := true) only [convertOld, newNames, oldNames1, oldNames2, oldNames3, List.foldl_cons,
      List.foldl_nil, key, if_false, false_and, oldCategory, oldFeed, c1, f1, oldBuffer,
      oldDecode, oldLog, Option.isSome_none, Bool.false_eq_true]
  · have key := eqNoCase_congr h
    have c1 : afterNoCase (lit "Category") n = none := afterNoCase_none h (by decide)
    have f1 : afterNoCase (lit "Feed") n = none := afterNoCase_none h (by decide)
    simp (decide := true) only [convertOld, newNames, oldNames1, oldNames2, oldNames3, List.foldl_cons,
      List.foldl_nil, key, if_false, false_and, oldCategory, oldFeed, c1, f1, oldBuffer,
      oldDecode, oldLog, Option.isSome_none, Bool.false_eq_true]

/-- The values of the check and the scan of par2-files which have other names today. -/
theorem convert_par (n v : Bytes) :
    (Same n (lit "ParCheck") → Same v (lit "yes") → convertOld n v = (n, lit "always")) ∧
    (Same n (lit "ParCheck") → Same v (lit "no") → convertOld n v = (n, lit "auto")) ∧
    (Same n (lit "ParScan") → Same v (lit "auto") → convertOld n v = (n, lit "extended")) := by
  refine ⟨fun h g => ?_, fun h g => ?_, fun h g => ?_⟩
  · rw [convert_value n v _ (Or.inl rfl) h]
    unfold oldValue
    rw [if_pos ⟨(same_iff _ _).2 h, (same_iff _ _).2 g⟩]
  · rw [convert_value n v _ (Or.inl rfl) h]
    unfold oldValue
    rw [if_neg (fun k => absurd ((same_iff _ _).1 k.2) (fun e => by
      have := g.symm.trans e; revert this; decide)), if_pos ⟨(same_iff _ _).2 h, (same_iff _ _).2 g⟩]
  · rw [convert_value n v _ (Or.inr rfl) h]
    unfold oldValue
    have hn : ¬ Same n (lit "ParCheck") := fun e => by
      have := h.symm.trans e; revert this; decide
    rw [if_neg (fun k => hn ((same_iff _ _).1 k.1)), if_neg (fun k => hn ((same_iff _ _).1 k.1)),
      if_pos ⟨(same_iff _ _).2 h, (same_iff _ _).2 g⟩]

/-- The size of the write buffer was given in bytes, today in KiB; -1 meant 1 MiB. -/
theorem convert_buffer (n v : Bytes) (h : Same n (lit "WriteBufferSize")) :
    convertOld n v = (lit "WriteBuffer", decInt (if intOf v = -1 then 1024 else (intOf v).tdiv 1024)) := by
  have key := eqNoCase_congr h
  have c1 : afterNoCase (lit "Category") n = none := afterNoCase_none h (by decide)
  have f1 : afterNoCase (lit "Feed") n = none := afterNoCase_none h (by decide)
  simp (decide := true) only [convertOld, newNames, oldNames1, oldNames2, oldNames3, List.foldl_cons,
    List.foldl_nil, key, if_true, if_false, oldValue, false_and, oldCategory, oldFeed, c1, f1, oldBuffer,
    oldDecode, oldLog, Option.isSome_none, Bool.false_eq_true]

/-- So a size of `k` KiB, written in bytes, stays this size. -/
theorem convert_buffer_size (n v : Bytes) (k : Nat) (h : Same n (lit "WriteBufferSize"))
    (hv : intOf v = 1024 * (k : Int)) : convertOld n v = (lit "WriteBuffer", decInt (k : Int)) := by
  rw [convert_buffer n v h, hv, if_neg (by omega)]
  congr 2
  rw [Int.mul_tdiv_cancel_left _ (by decide)]

example : intOf (lit "2048") = 1024 * ((2 : Nat) : Int) := by decide +kernel

/-! ### Scripts of categories and feeds -/

theorem replaceAll_append (src dst : Bytes) (t r : Bytes) (hs : src.head? = some 46) (h : (46 : UInt8) ∉ t) :
    replaceAll src dst 0 (t ++ r) = t ++ replaceAll src dst 0 r := by
  induction t with
  | nil => rfl
  | cons b t ih =>
    simp only [List.mem_cons, not_or] at h
    rw [List.cons_append]
    conv => lhs; unfold replaceAll
    rw [if_neg, ih h.2, List.cons_append]
    intro g
    cases src with
    | nil => simp at hs
    | cons a src =>
      simp at hs; subst hs
      unfold startsWith at g
      rw [List.isPrefixOf_cons_cons] at g
      simp at g
      exact h.1 g.1

theorem endsNoCase_self (c : Bytes) (t : String) (hc : c ≠ []) : endsNoCase (c ++ lit t) t = true := by
  unfold endsNoCase
  have h0 : 0 < c.length := List.length_pos_iff.2 hc
  rw [Bool.and_eq_true, decide_eq_true_eq, List.length_append, Nat.add_sub_cancel, List.drop_left' rfl, same_iff]
  exact ⟨by omega, rfl⟩

/-- The option for scripts of a category was named after them: `Category1.PostScript` and `Category1.DefScript` are
`Category1.Extensions` today. -/
theorem oldCategory_spec (ds : Bytes) (t : String) (ht : t = ".DefScript" ∨ t = ".PostScript") (h : (46 : UInt8) ∉ ds) :
    oldCategory (lit "Category" ++ ds ++ lit t) = lit "Category" ++ ds ++ lit ".Extensions" := by
  have hc : (46 : UInt8) ∉ lit "Category" ++ ds := by
    intro g
    rcases List.mem_append.1 g with g | g
    · revert g; decide
    · exact h g
  have hne : lit "Category" ++ ds ≠ [] := List.append_ne_nil_of_left_ne_nil (by decide) _
  have ha : (afterNoCase (lit "Category") (lit "Category" ++ ds ++ lit t)).isSome = true := by
    unfold afterNoCase
    rw [List.append_assoc, List.take_left' rfl, if_pos]
    · rfl
    · exact (same_iff _ _).2 rfl
  unfold oldCategory
  rw [if_pos ⟨ha, by
    rcases ht with rfl | rfl
    · left; exact endsNoCase_self _ _ hne
    · right; exact endsNoCase_self _ _ hne⟩]
  rw [replaceAll_append _ _ _ _ (by decide) hc, replaceAll_append _ _ _ _ (by decide) hc]
  rcases ht with rfl | rfl
  · have : replaceAll (lit ".PostScript") (lit ".Extensions") 0
        (replaceAll (lit ".DefScript") (lit ".Extensions") 0 (lit ".DefScript")) = lit ".Extensions" := by decide
    rw [this]
  · have : replaceAll (lit ".PostScript") (lit ".Extensions") 0
        (replaceAll (lit ".DefScript") (lit ".Extensions") 0 (lit ".PostScript")) = lit ".Extensions" := by decide
    rw [this]

/-- The same for feeds. -/
theorem oldFeed_spec (ds : Bytes) (h : (46 : UInt8) ∉ ds) :
    oldFeed (lit "Feed" ++ ds ++ lit ".FeedScript") = lit "Feed" ++ ds ++ lit ".Extensions" := by
  have hc : (46 : UInt8) ∉ lit "Feed" ++ ds := by
    intro g
    rcases List.mem_append.1 g with g | g
    · revert g; decide
    · exact h g
  have hne : lit "Feed" ++ ds ≠ [] := List.append_ne_nil_of_left_ne_nil (by decide) _
  have ha : (afterNoCase (lit "Feed") (lit "Feed" ++ ds ++ lit ".FeedScript")).isSome = true := by
    unfold afterNoCase
    rw [List.append_assoc, List.take_left' rfl, if_pos]
    · rfl
    · exact (same_iff _ _).2 rfl
  unfold oldFeed
  rw [if_pos ⟨ha, endsNoCase_self _ _ hne⟩, replaceAll_append _ _ _ _ (by decide) hc]
  have : replaceAll (lit ".FeedScript") (lit ".Extensions") 0 (lit ".FeedScript") = lit ".Extensions" := by decide
  rw [this]

theorem dot_same {a b : Bytes} (h : Same a b) (hb : (46 : UInt8) ∉ b) : (46 : UInt8) ∉ a := by
  intro g
  have h1 : WildMask.lower 46 ∈ a.map WildMask.lower := List.mem_map_of_mem g
  rw [show List.map WildMask.lower a = List.map WildMask.lower b from h] at h1
  obtain ⟨c, hc, e⟩ := List.mem_map.1 h1
  have : ∀ n : Fin 256, WildMask.lower (UInt8.ofNat n) = WildMask.lower 46 → UInt8.ofNat n = 46 := by decide +kernel
  have e2 := this ⟨c.toNat, c.toNat_lt⟩
  simp at e2
  rw [e2 e] at hc
  exact hb hc

theorem newNames_dot (l : List (String × String)) (n : Bytes) (hn : (46 : UInt8) ∈ n)
    (hl : ∀ p ∈ l, (46 : UInt8) ∉ lit p.1) : newNames l n = n :=
  newNames_same l n (fun p hp h => dot_same h (hl p hp) hn)

theorem convert_dot (n v : Bytes) (hn : (46 : UInt8) ∈ n) : convertOld n v = (oldFeed (oldCategory n), v) ∨
    (46 : UInt8) ∉ oldFeed (oldCategory n) := by
  by_cases hd : (46 : UInt8) ∈ oldFeed (oldCategory n)
  · left
    have h1 := newNames_dot oldNames1 n hn (by decide)
    have h2 := newNames_dot oldNames2 n hn (by decide)
    have h3 := newNames_dot oldNames3 _ hd (by decide)
    have ne : ∀ t : String, (46 : UInt8) ∉ lit t → ∀ m : Bytes, (46 : UInt8) ∈ m → Rpc.eqNoCase m (lit t) = false :=
      fun t ht m hm => eqNoCase_false (fun h => dot_same h ht hm)
    have hv : oldValue n v = v := by
      unfold oldValue
      rw [ne "ParCheck" (by decide) n hn, ne "ParScan" (by decide) n hn]
      simp
    unfold convertOld
    simp only [h1, h2, hv]
    unfold oldBuffer
    rw [ne "WriteBufferSize" (by decide) _ hd, if_neg Bool.false_ne_true]
    simp only [h3]
    unfold oldDecode
    rw [ne "Decode" (by decide) _ hd, if_neg Bool.false_ne_true]
    unfold oldLog
    rw [ne "LogBufferSize" (by decide) _ hd, if_neg Bool.false_ne_true]
  · exact Or.inr hd

/-- `Category1.PostScript` and `Category1.DefScript` are `Category1.Extensions` today, `Feed1.FeedScript` is
`Feed1.Extensions`; the value stays. -/
theorem convert_scripts (ds v : Bytes) (h : (46 : UInt8) ∉ ds) :
    convertOld (lit "Category" ++ ds ++ lit ".PostScript") v = (lit "Category" ++ ds ++ lit ".Extensions", v) ∧
    convertOld (lit "Category" ++ ds ++ lit ".DefScript") v = (lit "Category" ++ ds ++ lit ".Extensions", v) ∧
    convertOld (lit "Feed" ++ ds ++ lit ".FeedScript") v = (lit "Feed" ++ ds ++ lit ".Extensions", v) := by
  have feedOf : ∀ r : Bytes, oldFeed (lit "Category" ++ r) = lit "Category" ++ r := by
    intro r
    unfold oldFeed
    have : afterNoCase (lit "Feed") (lit "Category" ++ r) = none := by
      unfold afterNoCase
      rw [if_neg]
      intro g
      rw [same_iff] at g
      unfold Same at g
      revert g
      show ¬ (List.map WildMask.lower (67 :: 97 :: 116 :: 101 :: []) = List.map WildMask.lower (lit "Feed"))
      decide
    rw [this]; simp
  have catOf : ∀ r : Bytes, oldCategory (lit "Feed" ++ r) = lit "Feed" ++ r := by
    intro r
    unfold oldCategory
    have : afterNoCase (lit "Category") (lit "Feed" ++ r) = none := by
      unfold afterNoCase
      rw [if_neg]
      intro g
      rw [same_iff] at g
      unfold Same at g
      have hh := congrArg List.head? g
      revert hh
      show ¬ (some (WildMask.lower 70) = some (WildMask.lower 67))
      decide
    rw [this]; simp
  have dotOf : ∀ (r : Bytes) (t : String), (46 : UInt8) ∈ lit t → (46 : UInt8) ∈ r ++ ds ++ lit t :=
    fun r t ht => List.mem_append_right _ ht
  refine ⟨?_, ?_, ?_⟩
  · rcases convert_dot _ v (dotOf (lit "Category") ".PostScript" (by decide)) with e | e
    · rw [e, oldCategory_spec ds _ (Or.inr rfl) h, List.append_assoc, feedOf]
    · exfalso; apply e
      rw [oldCategory_spec ds _ (Or.inr rfl) h, List.append_assoc, feedOf, ← List.append_assoc]
      exact dotOf (lit "Category") ".Extensions" (by decide)
  · rcases convert_dot _ v (dotOf (lit "Category") ".DefScript" (by decide)) with e | e
    · rw [e, oldCategory_spec ds _ (Or.inl rfl) h, List.append_assoc, feedOf]
    · exfalso; apply e
      rw [oldCategory_spec ds _ (Or.inl rfl) h, List.append_assoc, feedOf, ← List.append_assoc]
      exact dotOf (lit "Category") ".Extensions" (by decide)
  · have hf := oldFeed_spec ds h
    rcases convert_dot _ v (dotOf (lit "Feed") ".FeedScript" (by decide)) with e | e
    · rw [e, List.append_assoc, catOf, ← List.append_assoc, hf]
    · exfalso; apply e
      rw [List.append_assoc, catOf, ← List.append_assoc, hf]
      exact dotOf (lit "Feed") ".Extensions" (by decide)

/-- In another spelling the name is found but not replaced: it stays as it is, and is then reported as an invalid
option. -/
theorem old_category_spelling : convertOld (lit "Category1.postscript") (lit "x") = (lit "Category1.postscript", lit "x") ∧
    newName (lit "Category1.postscript") = false := by decide +kernel

end Verif.OptStore
