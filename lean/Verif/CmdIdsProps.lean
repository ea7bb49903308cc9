import Verif.CmdArgsProps
import Verif.RarRenameNames
/-
Lists of ids and the commands which are no edits (C132).
-/
namespace Verif.CmdArgs
open CStr

/-! ### Ids -/

theorem pieces_run (sep : UInt8 → Bool) (c : UInt8) (hc : sep c = true) (s : Bytes) :
    ∀ (X cur : Bytes), (∀ x ∈ X, sep x = false) →
      Tokens.pieces sep cur (X ++ c :: s) =
        (if cur.reverse ++ X = [] then [] else [cur.reverse ++ X]) ++ Tokens.pieces sep [] s
  | [], cur, _ => by
    rw [List.nil_append, Tokens.pieces, if_pos hc, List.append_nil]
    by_cases h : cur = []
    · rw [if_pos h, if_pos (by simp [h])]
    · rw [if_neg h, if_neg (by simpa using h)]
  | x :: X, cur, h => by
    rw [List.cons_append, Tokens.pieces, if_neg (by rw [h x (by simp)]; decide),
      pieces_run sep c hc s X (x :: cur) (fun y hy => h y (List.mem_cons_of_mem _ hy))]
    simp

theorem pieces_last (sep : UInt8 → Bool) : ∀ (X cur : Bytes), (∀ x ∈ X, sep x = false) →
    Tokens.pieces sep cur X = if cur.reverse ++ X = [] then [] else [cur.reverse ++ X]
  | [], cur, _ => by
    rw [Tokens.pieces, List.append_nil]
    by_cases h : cur = []
    · rw [if_pos h, if_pos (by simp [h])]
    · rw [if_neg h, if_neg (by simpa using h)]
  | x :: X, cur, h => by
    rw [Tokens.pieces, if_neg (by rw [h x (by simp)]; decide),
      pieces_last sep X (x :: cur) (fun y hy => h y (List.mem_cons_of_mem _ hy))]
    simp

theorem dec_ne_nil (n : Nat) : dec n ≠ [] := by
  obtain ⟨d, l, h, _⟩ := decAux_ne_nil (n + 1) n (by omega)
  unfold dec
  rw [h]
  simp

theorem entry_sep (e : Entry) : ∀ x ∈ e.text, (x == 44 || x == 32) = false := by
  have hd : ∀ (n : Nat), ∀ x ∈ dec n, (x == 44 || x == 32) = false := by
    intro n x hx
    have := isDigit_dec n x hx
    by_cases h1 : x = 44
    · subst h1; exact absurd this (by decide)
    · by_cases h2 : x = 32
      · subst h2; exact absurd this (by decide)
      · simp [h1, h2]
  cases e with
  | one n => exact hd n
  | range a b =>
    intro x hx
    simp only [Entry.text, List.mem_append, List.mem_cons] at hx
    rcases hx with h | h | h
    · exact hd a x h
    · subst h; decide
    · exact hd b x h

theorem entry_ne_nil (e : Entry) : e.text ≠ [] := by
  cases e with
  | one n => exact dec_ne_nil n
  | range a b => simp [Entry.text]

theorem pieces_list : ∀ (l : List Entry),
    Tokens.pieces (fun b => b == 44 || b == 32) [] (listText l) = l.map Entry.text
  | [] => rfl
  | [e] => by
    rw [listText, pieces_last _ _ _ (entry_sep e)]
    simp [entry_ne_nil e]
  | e :: f :: l => by
    rw [listText, pieces_run _ 44 (by decide) _ _ _ (entry_sep e), pieces_list (f :: l)]
    · simp [entry_ne_nil e]
    · simp

theorem intOf_dec {n : Nat} (h : n < 2 ^ 31) (rest : Bytes) (hr : ∀ b, rest.head? = some b → isDigit b = false) :
    OptStore.intOf (dec n ++ rest) = n := by
  have := RpcParam.intOf_decInt (n : Int) (by omega) (by omega) rest hr
  unfold decInt at this
  rw [if_neg (by omega)] at this
  simpa using this

theorem dec_take {n : Nat} (h : n < 2 ^ 31) : (dec n).take 99 = dec n := by
  rw [List.take_of_length_le]
  have := RarRename.dec_length (n := n) (k := 10) (by omega) (by omega)
  omega

theorem no_dash (n : Nat) : ∀ x ∈ dec n, (x != 45) = true := by
  intro x hx
  have := isDigit_dec n x hx
  by_cases h1 : x = 45
  · subst h1; exact absurd this (by decide)
  · simp [h1]

theorem takeWhile_dec (n : Nat) (rest : Bytes) : (dec n ++ 45 :: rest).takeWhile (· != 45) = dec n := by
  rw [List.takeWhile_append_of_pos (no_dash n)]
  simp

theorem dropWhile_dec (n : Nat) (rest : Bytes) : (dec n ++ 45 :: rest).dropWhile (· != 45) = 45 :: rest := by
  rw [List.dropWhile_append_of_pos (no_dash n)]
  simp

theorem range_map (a k : Nat) :
    (List.range k).map (fun (i : Nat) => (a : Int) + (i : Int)) = (List.range' a k).map Int.ofNat := by
  apply List.ext_getElem
  · simp
  · intro i h1 h2
    simp

theorem range_down (a b k : Nat) (h : b + k = a + 1) :
    (List.range k).map (fun (i : Nat) => (a : Int) - (i : Int)) = ((List.range' b k).map Int.ofNat).reverse := by
  apply List.ext_getElem
  · simp
  · intro i h1 h2
    simp at h1 h2 ⊢
    omega

theorem idsOf_text {e : Entry} (h : e.Ok) : idsOf e.text = some e.ids := by
  cases e with
  | one n =>
    have hn : (dec n).contains 45 = false := by
      rw [Bool.eq_false_iff]
      intro q
      have := no_dash n 45 (by simpa using q)
      exact absurd this (by decide)
    unfold idsOf
    rw [show Entry.text (.one n) = dec n from rfl, if_neg (by rw [hn]; decide)]
    have hi := intOf_dec h.2 [] (by simp)
    rw [List.append_nil] at hi
    have h1 : 1 ≤ n := h.1
    rw [hi]
    unfold range
    rw [if_neg (by omega), if_neg (by omega)]
    simp [Entry.ids]
  | range a b =>
    have ha : 1 ≤ a ∧ a < 2 ^ 31 := h.1
    have hb : 1 ≤ b ∧ b < 2 ^ 31 := h.2
    unfold idsOf
    rw [show Entry.text (.range a b) = dec a ++ 45 :: dec b from rfl, if_pos (by simp)]
    dsimp only
    rw [takeWhile_dec, dropWhile_dec, if_neg (dec_ne_nil a), dec_take ha.2]
    have hi := intOf_dec ha.2 [] (by simp)
    have hj := intOf_dec hb.2 [] (by simp)
    rw [List.append_nil] at hi hj
    rw [List.drop_one, List.tail_cons, hi, hj]
    unfold range
    rw [if_neg (by omega)]
    unfold Entry.ids
    dsimp only
    by_cases hab : a < b
    · rw [if_pos (by omega), if_pos (by omega), show ((b : Int) - a + 1).toNat = b + 1 - a by omega, range_map]
    · rw [if_neg (by omega), show ((a : Int) - b + 1).toNat = a + 1 - b by omega, range_down a b _ (by omega)]
      by_cases he : a = b
      · subst he
        rw [if_pos (Nat.le_refl a), show a + 1 - a = 1 by omega]
        rfl
      · rw [if_neg (by omega)]

theorem idList_texts : ∀ (l : List Entry), (∀ e ∈ l, e.Ok) → idList (l.map Entry.text) = some (l.flatMap Entry.ids)
  | [], _ => rfl
  | e :: l, h => by
    rw [List.map_cons, idList, idsOf_text (h e (by simp)), idList_texts l (fun x hx => h x (List.mem_cons_of_mem _ hx))]
    rfl

/-- **Every id and every range of the list is taken, in the order of the list**, in one word or several. -/
theorem ids_read (words : List (List Entry)) (h : ∀ l ∈ words, ∀ e ∈ l, e.Ok) :
    parseIds (words.map listText) = some (words.flatten.flatMap Entry.ids) := by
  unfold parseIds
  rw [List.map_map]
  have : (Tokens.pieces (fun b => b == 44 || b == 32) [] ∘ listText) = (fun l : List Entry => l.map Entry.text) := by
    funext l
    exact pieces_list l
  rw [this, show (words.map (fun l : List Entry => l.map Entry.text)).flatten = words.flatten.map Entry.text by
    rw [List.map_flatten]]
  exact idList_texts _ (fun e he => by
    obtain ⟨l, hl, hel⟩ := List.mem_flatten.1 he
    exact h l hl e hel)

/-- **Exactly the named ids are taken.** -/
theorem ids_exact (words : List (List Entry)) (h : ∀ l ∈ words, ∀ e ∈ l, e.Ok) :
    ∃ ids, parseIds (words.map listText) = some ids ∧ ∀ x : Int, x ∈ ids ↔ ∃ l ∈ words, ∃ e ∈ l, e.Names x := by
  refine ⟨_, ids_read words h, fun x => ?_⟩
  have key : ∀ e : Entry, x ∈ e.ids ↔ e.Names x := by
    intro e
    cases e with
    | one n => simp [Entry.ids, Entry.Names]
    | range a b =>
      unfold Entry.ids Entry.Names
      dsimp only
      by_cases hab : a ≤ b
      · rw [if_pos hab]
        simp only [List.mem_map, List.mem_range'_1]
        constructor
        · rintro ⟨y, hy, rfl⟩
          left
          simp only [Int.ofNat_eq_natCast]
          omega
        · intro hx
          exact ⟨x.toNat, by omega, by simp only [Int.ofNat_eq_natCast]; omega⟩
      · rw [if_neg hab]
        simp only [List.mem_reverse, List.mem_map, List.mem_range'_1]
        constructor
        · rintro ⟨y, hy, rfl⟩
          right
          simp only [Int.ofNat_eq_natCast]
          omega
        · intro hx
          exact ⟨x.toNat, by omega, by simp only [Int.ofNat_eq_natCast]; omega⟩
  simp only [List.mem_flatMap, List.mem_flatten, key]
  constructor
  · rintro ⟨e, ⟨l, hl, he⟩, hx⟩
    exact ⟨l, hl, e, he, hx⟩
  · rintro ⟨l, hl, e, he, hx⟩
    exact ⟨e, ⟨l, hl, he⟩, hx⟩

example : parseIds [lit "1-5,3,10-12", lit "7", lit "9-8"] = some [1, 2, 3, 4, 5, 3, 10, 11, 12, 7, 9, 8] := by
  decide +kernel
example : [[Entry.range 1 5, .one 3, .range 10 12], [.one 7], [.range 9 8]].map listText =
    [lit "1-5,3,10-12", lit "7", lit "9-8"] := by decide +kernel

/-- **Only positive ids are ever sent.** -/
theorem ids_positive (words : List Bytes) {ids : List Int} (h : parseIds words = some ids) : ∀ x ∈ ids, 0 < x := by
  have hr : ∀ (a b : Int) (l : List Int), range a b = some l → ∀ x ∈ l, 0 < x := by
    intro a b l h x hx
    unfold range at h
    split at h
    · exact absurd h (by simp)
    · split at h
      · simp only [Option.some.injEq] at h
        subst h
        simp only [List.mem_map, List.mem_range] at hx
        omega
      · simp only [Option.some.injEq] at h
        subst h
        simp only [List.mem_map, List.mem_range] at hx
        omega
  have hi : ∀ (w : Bytes) (l : List Int), idsOf w = some l → ∀ x ∈ l, 0 < x := by
    intro w l h
    unfold idsOf at h
    split at h
    · exact hr _ _ _ h
    · exact hr _ _ _ h
  unfold parseIds at h
  generalize (words.map (Tokens.pieces (fun b => b == 44 || b == 32) [])).flatten = ws at h
  induction ws generalizing ids with
  | nil => simp only [idList, Option.some.injEq] at h; subst h; simp
  | cons w ws ih =>
    rw [idList] at h
    split at h
    · exact absurd h (by simp)
    · next a ha =>
      split at h
      · exact absurd h (by simp)
      · next b hb =>
        simp only [Option.some.injEq] at h
        subst h
        intro x hx
        rcases List.mem_append.1 hx with q | q
        · exact hi w a ha x q
        · exact ih hb x q

/-- A word with an entry which is no number is an error. -/
theorem idList_bad {w : Bytes} (hw : idsOf w = none) : ∀ (l : List Bytes), w ∈ l → idList l = none
  | [], h => absurd h (by simp)
  | v :: l, h => by
    rw [idList]
    cases hv : idsOf v with
    | none => rfl
    | some a =>
      rcases List.mem_cons.1 h with q | q
      · subst q; rw [hw] at hv; exact absurd hv (by simp)
      · rw [idList_bad hw l q]

/-- **A list with something else than numbers is refused as a whole**: an entry which begins with anything but a
digit, a sign or white space. -/
theorem ids_refused (pre post : List Entry) (b : UInt8) (w : Bytes) (words1 words2 : List Bytes)
    (hb : isDigit b = false ∧ isSpace b = false ∧ b ≠ 43 ∧ b ≠ 45 ∧ b ≠ 44) (hw : ∀ x ∈ w, x ≠ 44 ∧ x ≠ 32) :
    parseIds (words1 ++ (pre.flatMap (fun e => e.text ++ [44]) ++ (b :: w) ++ 44 :: listText post) :: words2) = none := by
  have hsep : ∀ x ∈ (b :: w), (x == 44 || x == 32) = false := by
    intro x hx
    rcases List.mem_cons.1 hx with q | q
    · subst q
      have : x ≠ 32 := fun q => by subst q; exact absurd hb.2.1 (by decide)
      simp [hb.2.2.2.2, this]
    · simp [hw x q]
  have hbad : idsOf (b :: w) = none := by
    have h0 : ∀ r : Bytes, OptStore.intOf (b :: r) = 0 := by
      intro r
      exact TaskDef.intOf_other _ (fun c hc => by
        simp only [List.head?_cons, Option.some.injEq] at hc
        subst hc
        exact ⟨hb.2.1, hb.1, hb.2.2.2.1, hb.2.2.1⟩)
    unfold idsOf
    split
    · dsimp only
      rw [show (b :: w).takeWhile (· != 45) = b :: w.takeWhile (· != 45) by
        rw [List.takeWhile_cons]; simp [hb.2.2.2.1]]
      rw [if_neg (by simp), List.take_succ_cons, h0]
      unfold range
      rw [if_pos (by omega)]
    · rw [h0]
      unfold range
      rw [if_pos (by omega)]
  have hmem : (b :: w) ∈ Tokens.pieces (fun b => b == 44 || b == 32) []
      (pre.flatMap (fun e => e.text ++ [44]) ++ (b :: w) ++ 44 :: listText post) := by
    induction pre with
    | nil =>
      rw [List.flatMap_nil, List.nil_append, pieces_run _ 44 (by decide) _ _ _ hsep]
      simp
    | cons e pre ih =>
      rw [List.flatMap_cons]
      rw [show e.text ++ [44] ++ pre.flatMap (fun e => e.text ++ [44]) ++ (b :: w) ++ 44 :: listText post =
        e.text ++ 44 :: (pre.flatMap (fun e => e.text ++ [44]) ++ (b :: w) ++ 44 :: listText post) by simp]
      rw [pieces_run _ 44 (by decide) _ _ _ (entry_sep e)]
      exact List.mem_append_right _ ih
  unfold parseIds
  apply idList_bad hbad
  rw [List.mem_flatten]
  exact ⟨_, List.mem_map.2 ⟨_, List.mem_append_right _ (List.mem_cons_self ..), rfl⟩, hmem⟩

/-- **Numbers above 32 bits are taken as other ids**: only their last 32 bits count. -/
theorem ids_wrap {n m k : Nat} (hn : n = 2 ^ 32 * k + m) (hm : 1 ≤ m) (hm2 : m < 2 ^ 31) (hlim : n < 2 ^ 63) :
    parseIds [dec n] = some [(m : Int)] := by
  have hi : OptStore.intOf (dec n) = m := by
    unfold OptStore.intOf
    have := atoll_dec n [] hlim (by simp)
    rw [List.append_nil] at this
    rw [this]
    unfold Int.bmod
    dsimp only
    omega
  have hc : (dec n).contains 45 = false := by
    rw [Bool.eq_false_iff]
    intro q
    exact absurd (no_dash n 45 (by simpa using q)) (by decide)
  unfold parseIds
  have hp := pieces_list [.one n]
  rw [show listText [.one n] = dec n from rfl] at hp
  rw [List.map_cons, List.map_nil, hp]
  show idList [dec n] = _
  have : idsOf (dec n) = some [(m : Int)] := by
    unfold idsOf
    rw [if_neg (by rw [hc]; decide), hi]
    unfold range
    rw [if_neg (by omega), if_neg (by omega)]
    simp
  rw [idList, this]
  rfl

example : parseIds [lit "4294967301"] = some [5] := by decide +kernel

end Verif.CmdArgs
