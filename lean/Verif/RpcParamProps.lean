import Verif.RpcParam
import Verif.RpcProps
import Verif.JsonTextProps
import Verif.XmlTextProps
import Verif.OptStoreProps
/-! C110: the parameters of remote calls arrive as they were sent. -/
namespace Verif.RpcParam
open CStr

/-! ### Specification -/

/-- A parameter. -/
inductive Arg where
  | int (i : Int)
  | bool (b : Bool)
  | str (s : Bytes)
deriving DecidableEq, Repr

/-- A parameter in JSON: a number of 32 bits, `true` or `false`, or the characters of a string between quotes, in which no short escape
is followed by an escaped quote or backslash (C66). -/
inductive Json : Arg → Bytes → Prop where
  | int (i : Int) : -2147483648 ≤ i → i ≤ 2147483647 → Json (.int i) (decInt i)
  | yes : Json (.bool true) (lit "true")
  | no : Json (.bool false) (lit "false")
  | str (b : Bytes) : JsonText.Body false b → Json (.str b) (34 :: b ++ [34])

/-- `p` does not occur in `x`. -/
def Free (p x : Bytes) : Prop := ∀ u v, x ≠ u ++ p ++ v

/-- The tag and the text of a parameter in XML. Texts have no `<`. -/
inductive Xml : Arg → Bytes → Bytes → Prop where
  | i4 (i : Int) : -2147483648 ≤ i → i ≤ 2147483647 → Xml (.int i) (lit "i4") (decInt i)
  | int (i : Int) : -2147483648 ≤ i → i ≤ 2147483647 → Xml (.int i) (lit "int") (decInt i)
  | yes : Xml (.bool true) (lit "boolean") (lit "1")
  | no : Xml (.bool false) (lit "boolean") (lit "0")
  | str (s : Bytes) : 60 ∉ s → Xml (.str s) (lit "string") s

/-- The text of a parameter in a link. Texts have no `&`. -/
inductive Link (json : Bool) : Arg → Bytes → Prop where
  | int (i : Int) : -2147483648 ≤ i → i ≤ 2147483647 → Link json (.int i) (decInt i)
  | bool (b : Bool) : Link json (.bool b) (if json then (if b then lit "true" else lit "false") else if b then lit "1" else lit "0")
  | str (s : Bytes) : 38 ∉ s → Link json (.str s) s

/-- What may be between `<value>` and the tag of a parameter, like `<array><data><value>` or `<struct><member><name>x</name><value>`. -/
def Opening (w : Bytes) : Prop :=
  Free (lit "<i4") w ∧ Free (lit "<int") w ∧ Free (lit "<boolean") w ∧ Free (lit "<string") w ∧ Free (lit "</value>") w

/-- A text which begins with a parameter, and the text which follows. In XML the text is cut before the end `>` of the tag. -/
inductive One : Mode → Arg → Bytes → Bytes → Prop where
  | json (a : Arg) (lead t : Bytes) (e : UInt8) (rest : Bytes) : (∀ c ∈ lead, JsonText.isLead c = true) → Json a t → JsonText.isEnd e = true →
      One .json a (lead ++ t ++ e :: rest) rest
  | key (lead b rest : Bytes) : (∀ c ∈ lead, JsonText.isLead c = true) → JsonText.Body false b → One .json (.str b) (lead ++ (34 :: b ++ [34]) ++ 58 :: rest) rest
  | xml (a : Arg) (gap w1 tag t w2 r : Bytes) : Free (lit "<value") gap → Opening w1 → Xml a tag t → 60 ∉ w2 →
      One .xml a (gap ++ lit "<value>" ++ w1 ++ lit "<" ++ tag ++ lit ">" ++ t ++ lit "</" ++ tag ++ (62 :: w2 ++ lit "</value>" ++ r))
        (62 :: w2 ++ lit "</value>" ++ r)
  | link (j : Bool) (a : Arg) (name t rest : Bytes) : 61 ∉ name → Link j a t → (∀ c, rest.head? = some c → numeric c = false ∧ c ≠ 38) →
      One (.get j) a (name ++ lit "=" ++ t ++ lit "&" ++ rest) rest
  | last (j : Bool) (a : Arg) (name t : Bytes) : 61 ∉ name → Link j a t → One (.get j) a (name ++ lit "=" ++ t) []

/-- A text which begins with the given parameters, and the text which follows. -/
inductive Sent (m : Mode) (tail : Bytes) : List Arg → Bytes → Prop where
  | nil : Sent m tail [] tail
  | cons (a : Arg) (as : List Arg) (s rest : Bytes) : One m a s rest → Sent m tail as rest → Sent m tail (a :: as) s

/-- No parameter follows: in JSON the array or object ends; in XML there is no value; in a link there is no `=`. -/
inductive Ends : Mode → Bytes → Prop where
  | json (lead r : Bytes) (c : UInt8) : (∀ x ∈ lead, JsonText.isLead x = true) → c = 93 ∨ c = 125 → Ends .json (lead ++ c :: r)
  | empty (lead : Bytes) : (∀ x ∈ lead, JsonText.isLead x = true) → Ends .json lead
  | xml (s : Bytes) : Free (lit "<value") s → Ends .xml s
  | link (j : Bool) (s : Bytes) : 61 ∉ s → Ends (.get j) s

/-! ### Numbers -/

theorem decInt_cons (i : Int) : ∃ b t, decInt i = b :: t ∧ numeric b = true := by
  unfold decInt
  split
  · exact ⟨45, _, rfl, rfl⟩
  · obtain ⟨d, l, h, hd⟩ := decAux_ne_nil (i.natAbs + 1) i.natAbs (by omega)
    refine ⟨d, l, h, ?_⟩
    unfold numeric
    rw [hd, Bool.or_true]

theorem decInt_numeric (i : Int) : ∀ b ∈ decInt i, numeric b = true := by
  intro b hb
  unfold decInt at hb
  unfold numeric
  split at hb
  · rcases List.mem_cons.1 hb with rfl | h
    · rfl
    · rw [isDigit_dec _ b h, Bool.or_true]
  · rw [isDigit_dec _ b hb, Bool.or_true]

theorem numeric_iff : ∀ b : UInt8, numeric b = true → b ≠ 92 ∧ JsonText.isEnd b = false ∧ JsonText.isLead b = false ∧ b ≠ 34 ∧ b ≠ 60 ∧ b ≠ 38 := by
  intro b
  have : ∀ n : Fin 256, numeric (UInt8.ofNat n.val) = true →
      (UInt8.ofNat n.val) ≠ 92 ∧ JsonText.isEnd (UInt8.ofNat n.val) = false ∧ JsonText.isLead (UInt8.ofNat n.val) = false ∧
      (UInt8.ofNat n.val) ≠ 34 ∧ (UInt8.ofNat n.val) ≠ 60 ∧ (UInt8.ofNat n.val) ≠ 38 := by decide +kernel
  have h := this ⟨b.toNat, b.toNat_lt⟩
  rwa [UInt8.ofNat_toNat] at h

theorem intOf_decInt (i : Int) (h1 : -2147483648 ≤ i) (h2 : i ≤ 2147483647) (rest : Bytes) (hr : ∀ b, rest.head? = some b → isDigit b = false) :
    OptStore.intOf (decInt i ++ rest) = i := by
  have key : atoll (decInt i ++ rest) = i := by
    unfold decInt
    split
    · next h =>
      show atoll (45 :: (dec i.natAbs ++ rest)) = i
      unfold atoll
      rw [List.dropWhile_cons, if_neg (by decide)]
      dsimp only
      rw [if_pos rfl, digits_dec _ _ (fun b hb => hr b hb)]
      unfold clamp64
      omega
    · next h =>
      rw [atoll_dec _ _ (by omega) (fun b hb => hr b hb)]
      omega
  unfold OptStore.intOf
  rw [key]
  exact Int.bmod_eq_of_le (by omega) (by omega)

/-! ### JSON -/

theorem isEnd_not : ∀ b : UInt8, JsonText.isEnd b = true → b ≠ 92 ∧ isDigit b = false := by
  intro b
  have : ∀ n : Fin 256, JsonText.isEnd (UInt8.ofNat n.val) = true → (UInt8.ofNat n.val) ≠ 92 ∧ isDigit (UInt8.ofNat n.val) = false := by decide +kernel
  have h := this ⟨b.toNat, b.toNat_lt⟩
  rwa [UInt8.ofNat_toNat] at h

theorem scan_word (e : UInt8) (he : JsonText.isEnd e = true) (rest : Bytes) : ∀ (t : Bytes) (c : UInt8) (acc : Bytes),
    (∀ b ∈ c :: t, b ≠ 92 ∧ JsonText.isEnd b = false) → JsonText.scan false c (t ++ e :: rest) acc = some (acc.reverse ++ c :: t, e :: rest)
  | [], c, acc, h => by
    have hc := h c List.mem_cons_self
    rw [JsonText.scan.eq_def, if_neg hc.1, if_neg (by simp), if_neg (by rw [hc.2]; simp)]
    show JsonText.scan false e rest (c :: acc) = _
    rw [JsonText.scan.eq_def, if_neg (isEnd_not e he).1, if_neg (by simp), if_pos ⟨rfl, he⟩]
    simp
  | d :: t, c, acc, h => by
    have hc := h c List.mem_cons_self
    rw [JsonText.scan.eq_def, if_neg hc.1, if_neg (by simp), if_neg (by rw [hc.2]; simp)]
    show JsonText.scan false d (t ++ e :: rest) (c :: acc) = _
    rw [scan_word e he rest t d (c :: acc) (fun b hb => h b (List.mem_cons_of_mem _ hb))]
    simp

theorem dropWhile_lead (lead s : Bytes) (h : ∀ c ∈ lead, JsonText.isLead c = true) : (lead ++ s).dropWhile JsonText.isLead = s.dropWhile JsonText.isLead := by
  induction lead with
  | nil => rfl
  | cons c lead ih =>
    rw [List.cons_append, List.dropWhile_cons, if_pos (h c List.mem_cons_self)]
    exact ih (fun d hd => h d (List.mem_cons_of_mem _ hd))

theorem word_value (lead : Bytes) (c : UInt8) (t : Bytes) (e : UInt8) (rest : Bytes) (hl : ∀ c ∈ lead, JsonText.isLead c = true)
    (hc : JsonText.isLead c = false ∧ c ≠ 34) (ht : ∀ b ∈ c :: t, b ≠ 92 ∧ JsonText.isEnd b = false) (he : JsonText.isEnd e = true) :
    JsonText.nextValue (lead ++ c :: t ++ e :: rest) = some (c :: t, e :: rest) := by
  unfold JsonText.nextValue
  rw [List.append_assoc, dropWhile_lead lead _ hl, List.cons_append, List.dropWhile_cons, if_neg (by rw [hc.1]; simp)]
  dsimp only
  rw [if_neg hc.2, scan_word e he rest t c [] ht]
  rfl

theorem str_value (lead b : Bytes) (e : UInt8) (rest : Bytes) (hl : ∀ c ∈ lead, JsonText.isLead c = true) (hb : JsonText.Body false b) :
    JsonText.nextValue (lead ++ (34 :: b ++ [34]) ++ e :: rest) = some (34 :: b ++ [34], e :: rest) := by
  have := JsonText.string_value_found_partial lead b (e :: rest) hl hb
  simp only [List.append_assoc, List.cons_append, List.nil_append] at this ⊢
  exact this

theorem ends_value (s : Bytes) (h : Ends .json s) : JsonText.nextValue s = none ∨ ∃ c r, JsonText.nextValue s = some ([], c :: r) := by
  generalize hm : Mode.json = m at h
  cases h with
  | json lead r c hl hc =>
    right
    refine ⟨c, r, ?_⟩
    unfold JsonText.nextValue
    rw [dropWhile_lead lead _ hl, List.dropWhile_cons, if_neg (by rcases hc with rfl | rfl <;> decide)]
    dsimp only
    rw [if_neg (by rcases hc with rfl | rfl <;> decide), JsonText.scan.eq_def, if_neg (by rcases hc with rfl | rfl <;> decide), if_neg (by simp),
      if_pos (by rcases hc with rfl | rfl <;> exact ⟨rfl, by decide⟩)]
    rfl
  | empty _ hl =>
    left
    unfold JsonText.nextValue
    have := dropWhile_lead s [] hl
    rw [List.append_nil] at this
    rw [this]
    rfl
  | xml => exact nomatch hm
  | link => exact nomatch hm

theorem skip_one (e : UInt8) (r : Bytes) : skip 1 (e :: r) = some r := by
  unfold skip
  rw [if_pos (by simp)]
  rfl

theorem json_int (i : Int) (s rest : Bytes) (h : One .json (.int i) s rest) : nextInt .json s = (some i, some rest) := by
  cases h with
  | json _ lead t e _ hl hj he =>
    cases hj with
    | int _ h1 h2 =>
      obtain ⟨b, t, ht, hb⟩ := decInt_cons i
      have hn := decInt_numeric i
      rw [ht] at hn ⊢
      unfold nextInt
      dsimp only
      rw [word_value lead b t e rest hl ⟨(numeric_iff b hb).2.2.1, (numeric_iff b hb).2.2.2.1⟩
        (fun x hx => ⟨(numeric_iff x (hn x hx)).1, (numeric_iff x (hn x hx)).2.1⟩) he]
      dsimp only
      rw [if_pos hb, skip_one, ← ht, intOf_decInt i h1 h2 _ (fun x hx => by injection hx with hx; subst hx; exact (isEnd_not e he).2)]

theorem json_bool (b : Bool) (s rest : Bytes) (h : One .json (.bool b) s rest) : nextBool .json s = (some b, some rest) := by
  cases h with
  | json _ lead t e _ hl hj he =>
    cases hj with
    | yes =>
      unfold nextBool
      dsimp only
      have := word_value lead 116 (lit "rue") e rest hl (by decide) (by decide) he
      rw [show lit "true" = 116 :: lit "rue" from by decide, this]
      dsimp only
      rw [if_pos rfl, skip_one]
    | no =>
      unfold nextBool
      dsimp only
      have := word_value lead 102 (lit "alse") e rest hl (by decide) (by decide) he
      rw [show lit "false" = 102 :: lit "alse" from by decide, this]
      dsimp only
      rw [if_neg (by decide), if_pos rfl, skip_one]

theorem json_str' (lead v : Bytes) (e : UInt8) (rest : Bytes) (hl : ∀ c ∈ lead, JsonText.isLead c = true) (hb : JsonText.Body false v) :
    nextStr .json (lead ++ (34 :: v ++ [34]) ++ e :: rest) = (some v, some rest) ∧
    nextInt .json (lead ++ (34 :: v ++ [34]) ++ e :: rest) = (none, some (lead ++ (34 :: v ++ [34]) ++ e :: rest)) := by
  have hv := str_value lead v e rest hl hb
  constructor
  · unfold nextStr
    dsimp only
    rw [hv]
    dsimp only
    have hg : (34 :: v ++ [34]).getLast? = some 34 := List.getLast?_concat
    rw [hg, if_neg (by simp), skip_one]
    simp
  · unfold nextInt
    dsimp only
    rw [hv]
    rfl

theorem json_str (v s rest : Bytes) (h : One .json (.str v) s rest) : nextStr .json s = (some v, some rest) ∧ nextInt .json s = (none, some s) := by
  cases h with
  | json _ lead t e _ hl hj he =>
    cases hj with
    | str _ hb => exact json_str' lead v e rest hl hb
  | key lead _ _ hl hb => exact json_str' lead v 58 rest hl hb

/-! ### Links -/

theorem dropWhile_ne {a : UInt8} {n : Bytes} (h : a ∉ n) (s : Bytes) : (n ++ a :: s).dropWhile (· != a) = a :: s := by
  induction n with
  | nil => rw [List.nil_append, List.dropWhile_cons, if_neg (by simp)]
  | cons b n ih =>
    rw [List.cons_append, List.dropWhile_cons, if_pos (by simp; exact fun e => h (e ▸ List.mem_cons_self))]
    exact ih (fun g => h (List.mem_cons_of_mem _ g))

theorem takeWhile_ne {a : UInt8} {n : Bytes} (h : a ∉ n) (s : Bytes) : (n ++ a :: s).takeWhile (· != a) = n := by
  induction n with
  | nil => rw [List.nil_append, List.takeWhile_cons, if_neg (by simp)]
  | cons b n ih =>
    rw [List.cons_append, List.takeWhile_cons, if_pos (by simp; exact fun e => h (e ▸ List.mem_cons_self)),
      ih (fun g => h (List.mem_cons_of_mem _ g))]

theorem while_all {a : UInt8} {n : Bytes} (h : a ∉ n) : n.takeWhile (· != a) = n ∧ n.dropWhile (· != a) = [] := by
  induction n with
  | nil => exact ⟨rfl, rfl⟩
  | cons b n ih =>
    have hb : (b != a) = true := by simp; exact fun e => h (e ▸ List.mem_cons_self)
    have := ih (fun g => h (List.mem_cons_of_mem _ g))
    rw [List.takeWhile_cons, List.dropWhile_cons, if_pos hb, if_pos hb, this.1]
    exact ⟨rfl, this.2⟩

theorem afterEq_eq (name t : Bytes) (h : 61 ∉ name) : afterEq (name ++ lit "=" ++ t) = some t := by
  unfold afterEq
  rw [show name ++ lit "=" ++ t = name ++ 61 :: t from by rw [List.append_assoc]; rfl, dropWhile_ne h]

theorem afterEq_none (s : Bytes) (h : 61 ∉ s) : afterEq s = none := by
  unfold afterEq
  rw [(while_all h).2]

theorem dropNum (t : Bytes) (h : ∀ b ∈ t, numeric b = true) (rest : Bytes) :
    (t ++ rest).dropWhile (fun c => numeric c || c == 38) = rest.dropWhile (fun c => numeric c || c == 38) := by
  induction t with
  | nil => rfl
  | cons c t ih =>
    rw [List.cons_append, List.dropWhile_cons, if_pos (by rw [h c List.mem_cons_self]; rfl)]
    exact ih (fun d hd => h d (List.mem_cons_of_mem _ hd))

theorem link_free {j : Bool} {a : Arg} {t : Bytes} (h : Link j a t) : 38 ∉ t := by
  cases h with
  | int i => intro hm; exact (numeric_iff _ (decInt_numeric i _ hm)).2.2.2.2.2 rfl
  | bool b => cases j <;> cases b <;> decide
  | str s hs => exact hs

theorem link_str' (j : Bool) (a : Arg) (s rest : Bytes) (h : One (.get j) a s rest) : ∃ t, Link j a t ∧ nextStr (.get j) s = (some t, some rest) := by
  cases h with
  | link _ _ name t _ hn hl hr =>
    refine ⟨t, hl, ?_⟩
    unfold nextStr
    dsimp only
    rw [show name ++ lit "=" ++ t ++ lit "&" ++ rest = name ++ lit "=" ++ (t ++ 38 :: rest) from by simp [lit], afterEq_eq _ _ hn]
    dsimp only
    rw [takeWhile_ne (link_free hl), dropWhile_ne (link_free hl)]
    rfl
  | last _ _ name t hn hl =>
    refine ⟨t, hl, ?_⟩
    unfold nextStr
    dsimp only
    rw [afterEq_eq _ _ hn]
    dsimp only
    rw [(while_all (link_free hl)).1, (while_all (link_free hl)).2]
    rfl

theorem link_str (j : Bool) (v s rest : Bytes) (h : One (.get j) (.str v) s rest) : nextStr (.get j) s = (some v, some rest) := by
  obtain ⟨t, hl, e⟩ := link_str' j _ s rest h
  cases hl with
  | str _ _ => exact e

theorem link_bool (j b : Bool) (s rest : Bytes) (h : One (.get j) (.bool b) s rest) : nextBool (.get j) s = (some b, some rest) := by
  obtain ⟨t, hl, e⟩ := link_str' j _ s rest h
  unfold nextBool
  dsimp only
  rw [e]
  dsimp only
  cases hl with
  | bool _ => cases j <;> cases b <;> rfl

theorem link_int (j : Bool) (i : Int) (s rest : Bytes) (h : One (.get j) (.int i) s rest) : nextInt (.get j) s = (some i, some rest) := by
  cases h with
  | link _ _ name t _ hn hl hr =>
    cases hl with
    | int _ h1 h2 =>
      unfold nextInt
      dsimp only
      rw [show name ++ lit "=" ++ decInt i ++ lit "&" ++ rest = name ++ lit "=" ++ (decInt i ++ 38 :: rest) from by simp [lit], afterEq_eq _ _ hn]
      dsimp only
      rw [dropNum _ (decInt_numeric i), intOf_decInt i h1 h2 _ (fun b hb => by injection hb with hb; subst hb; rfl), List.dropWhile_cons, if_pos (by rfl)]
      congr 2
      cases rest with
      | nil => rfl
      | cons c r =>
        have := hr c rfl
        rw [List.dropWhile_cons, if_neg (by rw [this.1]; simp [this.2])]
  | last _ _ name t hn hl =>
    cases hl with
    | int _ h1 h2 =>
      unfold nextInt
      dsimp only
      rw [afterEq_eq _ _ hn]
      dsimp only
      have h3 := dropNum _ (decInt_numeric i) []
      have h4 := intOf_decInt i h1 h2 [] (fun b hb => nomatch hb)
      rw [List.append_nil] at h3 h4
      rw [h3, h4]
      rfl

/-! ### XML -/

/-- An occurrence of a word whose first letter it has only once begins behind a text in which the word does not occur and which that letter
follows. -/
theorem occ_after {a : UInt8} {q : Bytes} (ha : a ∉ q) : ∀ (x u r v : Bytes), Free (a :: q) x → x ++ a :: r = u ++ (a :: q) ++ v → x.length ≤ u.length
  | [], _, _, _, _, _ => by simp
  | c :: x, [], r, v, hf, e => by
    exfalso
    rw [List.nil_append] at e
    by_cases hl : q.length ≤ x.length
    · apply hf [] ((c :: x).drop (q.length + 1))
      have h1 : (c :: x).take (q.length + 1) = a :: q := by
        have := congrArg (List.take (q.length + 1)) e
        rw [List.take_append_of_le_length (by simpa using hl), List.take_left' (by simp)] at this
        exact this
      rw [List.nil_append, ← h1, List.take_append_drop]
    · have h1 : (c :: x ++ a :: r)[x.length + 1]? = some a := by
        rw [List.getElem?_append_right (by simp)]
        simp
      rw [e, List.getElem?_append_left (by simp; omega), List.getElem?_cons_succ] at h1
      exact ha (List.mem_of_getElem? h1)
  | c :: x, d :: u, r, v, hf, e => by
    simp only [List.cons_append, List.cons.injEq] at e
    have := occ_after ha x u r v (fun u' v' h => hf (c :: u') v' (by rw [h]; rfl)) (by simpa using e.2)
    simpa using this

theorem free_append {a : UInt8} {q : Bytes} (ha : a ∉ q) {x r : Bytes} (h1 : Free (a :: q) x) (h2 : Free (a :: q) (a :: r)) : Free (a :: q) (x ++ a :: r) := by
  intro u v e
  have hl := occ_after ha x u r v h1 e
  apply h2 (u.drop x.length) v
  have := congrArg (List.drop x.length) e
  rw [List.drop_left, List.append_assoc, List.drop_append_of_le_length hl] at this
  rw [this, List.append_assoc]

theorem free_skip {a : UInt8} {q : Bytes} {t : Bytes} (h : a ∉ t) {s : Bytes} (hs : Free (a :: q) s) : Free (a :: q) (t ++ s) := by
  induction t with
  | nil => exact hs
  | cons b t ih =>
    intro u v e
    cases u with
    | nil =>
      simp only [List.nil_append, List.cons_append, List.cons.injEq] at e
      exact h (e.1 ▸ List.mem_cons_self)
    | cons c u =>
      simp only [List.cons_append, List.cons.injEq] at e
      exact ih (fun g => h (List.mem_cons_of_mem _ g)) u v (by simpa using e.2)

theorem free_of_not_mem {a : UInt8} {q : Bytes} {t : Bytes} (h : a ∉ t) : Free (a :: q) t := by
  intro u v e
  exact h (by rw [e]; simp)

theorem free_cons {a : UInt8} {q : Bytes} {b : UInt8} {s : Bytes} (h : startsWith (a :: q) (b :: s) = false) (hs : Free (a :: q) s) : Free (a :: q) (b :: s) := by
  intro u v e
  cases u with
  | nil =>
    rw [List.nil_append] at e
    rw [e, startsWith_append] at h
    exact nomatch h
  | cons c u =>
    simp only [List.cons_append, List.cons.injEq] at e
    exact hs u v (by simpa using e.2)

theorem free_longer {p q x : Bytes} (h : Free p x) : Free (p ++ q) x := by
  intro u v e
  exact h u (q ++ v) (by rw [e]; simp)

theorem split_min (p : Bytes) : ∀ (s u v u' v' : Bytes), Rpc.split p s = some (u, v) → s = u' ++ p ++ v' → u.length ≤ u'.length
  | [], u, v, u', v', h, e => by
    unfold Rpc.split at h
    split at h
    · injection h with h; injection h with h1 h2; subst h1; simp
    · exact nomatch h
  | b :: s, u, v, u', v', h, e => by
    unfold Rpc.split at h
    split at h
    · injection h with h; injection h with h1 h2; subst h1; simp
    · next hn =>
      cases u' with
      | nil =>
        rw [List.nil_append] at e
        rw [e, startsWith_append] at hn
        exact absurd rfl hn
      | cons c u' =>
        simp only [List.cons_append, List.cons.injEq] at e
        cases g : Rpc.split p s with
        | none => rw [g] at h; exact nomatch h
        | some r =>
          rw [g] at h
          injection h with h
          injection h with h1 h2
          have := split_min p s r.1 r.2 u' v' g (by simpa using e.2)
          rw [← h1]
          simpa using this

theorem split_first {a : UInt8} {q : Bytes} (ha : a ∉ q) (x y : Bytes) (h : Free (a :: q) x) : Rpc.split (a :: q) (x ++ (a :: q) ++ y) = some (x, y) := by
  have hs := Rpc.split_complete (a :: q) x y
  cases g : Rpc.split (a :: q) (x ++ (a :: q) ++ y) with
  | none => rw [g] at hs; exact nomatch hs
  | some r =>
    obtain ⟨u, v⟩ := r
    have e := Rpc.split_some g
    have h1 := split_min _ _ _ _ x y g rfl
    have h2 := occ_after ha x u (q ++ y) v h (by rw [← e]; simp)
    rw [List.append_assoc, List.append_assoc] at e
    obtain ⟨e1, e2⟩ := List.append_inj e (by omega)
    rw [e1, List.append_cancel_left e2]

theorem split_none {p s : Bytes} (h : Free p s) : Rpc.split p s = none := by
  cases g : Rpc.split p s with
  | none => rfl
  | some r => exact absurd (Rpc.split_some g) (h r.1 r.2)

/-- A tag without `<`. -/
theorem findAt_spec (tag x t y : Bytes) (hm : 60 ∉ tag) (hx : Free (60 :: tag) x) (ht : Free (60 :: 47 :: (tag ++ [62])) t) :
    findAt tag (x ++ lit "<" ++ tag ++ lit ">" ++ t ++ lit "</" ++ tag ++ lit ">" ++ y) = some (x.length + tag.length + 2, t.length) := by
  have e : x ++ lit "<" ++ tag ++ lit ">" ++ t ++ lit "</" ++ tag ++ lit ">" ++ y = x ++ (60 :: (tag ++ [62])) ++ (t ++ (60 :: 47 :: (tag ++ [62])) ++ y) := by simp [lit]
  have e1 : lit "<" ++ tag ++ lit ">" = 60 :: (tag ++ [62]) := by simp [lit]
  have e2 : lit "</" ++ tag ++ lit ">" = 60 :: 47 :: (tag ++ [62]) := by simp [lit]
  have e3 : lit "<" ++ tag ++ lit "/>" = 60 :: (tag ++ [47, 62]) := by simp [lit]
  have s1 : Rpc.split (60 :: (tag ++ [62])) (x ++ (60 :: (tag ++ [62])) ++ (t ++ (60 :: 47 :: (tag ++ [62])) ++ y)) =
      some (x, t ++ (60 :: 47 :: (tag ++ [62])) ++ y) :=
    split_first (by simp [hm]) x _ (free_longer hx)
  have s2 : Rpc.split (60 :: 47 :: (tag ++ [62])) (t ++ (60 :: 47 :: (tag ++ [62])) ++ y) = some (t, y) := split_first (by simp [hm]) t y ht
  unfold findAt
  rw [e, e1, e2, e3, s1]
  dsimp only
  cases g : Rpc.split (60 :: (tag ++ [47, 62])) (x ++ (60 :: (tag ++ [62])) ++ (t ++ (60 :: 47 :: (tag ++ [62])) ++ y)) with
  | none => dsimp only; rw [s2]; rfl
  | some r =>
    dsimp only
    rw [s2]
    have h1 := Rpc.split_some g
    have h2 := occ_after hm x r.1 (tag ++ [62] ++ (t ++ (60 :: 47 :: (tag ++ [62])) ++ y)) ([47, 62] ++ r.2) hx (by
      simp only [List.append_assoc, List.cons_append, List.nil_append] at h1 ⊢
      exact h1)
    rw [if_neg (by omega)]
    rfl

theorem findAt_beyond (tag x r : Bytes) (hm : 60 ∉ tag) (hx : Free (60 :: tag) x) (hh : tag.head? ≠ some 47) (hne : tag ≠ []) (o l : Nat)
    (h : findAt tag (x ++ 60 :: 47 :: r) = some (o, l)) : x.length < o := by
  have e1 : lit "<" ++ tag ++ lit ">" = 60 :: (tag ++ [62]) := by simp [lit]
  have e3 : lit "<" ++ tag ++ lit "/>" = 60 :: (tag ++ [47, 62]) := by simp [lit]
  have key : ∀ w u v, Rpc.split (60 :: (tag ++ w)) (x ++ 60 :: 47 :: r) = some (u, v) → x.length < u.length := by
    intro w u v g
    have h1 := Rpc.split_some g
    have h2 := occ_after hm x u (47 :: r) (w ++ v) hx (by
      simp only [List.append_assoc, List.cons_append] at h1 ⊢
      exact h1)
    by_cases hl : x.length = u.length
    · exfalso
      rw [List.append_assoc] at h1
      obtain ⟨_, h3⟩ := List.append_inj h1 hl
      rw [List.cons_append] at h3
      injection h3 with _ h3
      cases tag with
      | nil => exact hne rfl
      | cons c tag =>
        simp only [List.cons_append, List.cons.injEq] at h3
        exact hh (by rw [← h3.1]; rfl)
    · omega
  unfold findAt at h
  rw [e1, e3] at h
  dsimp only at h
  have body : ∀ f : Bytes × Bytes, Rpc.split (60 :: (tag ++ [62])) (x ++ 60 :: 47 :: r) = some f →
      (Rpc.split (lit "</" ++ tag ++ lit ">") f.2).map (fun c => (f.1.length + tag.length + 2, c.1.length)) = some (o, l) → x.length < o := by
    intro f hf hb
    have := key [62] f.1 f.2 hf
    cases g : Rpc.split (lit "</" ++ tag ++ lit ">") f.2 with
    | none => rw [g] at hb; exact nomatch hb
    | some c =>
      rw [g] at hb
      injection hb with hb
      injection hb with hb _
      omega
  cases g1 : Rpc.split (60 :: (tag ++ [47, 62])) (x ++ 60 :: 47 :: r) with
  | none =>
    rw [g1] at h
    cases g2 : Rpc.split (60 :: (tag ++ [62])) (x ++ 60 :: 47 :: r) with
    | none => rw [g2] at h; exact nomatch h
    | some f => rw [g2] at h; exact body f g2 h
  | some e =>
    have he := key [47, 62] e.1 e.2 g1
    rw [g1] at h
    cases g2 : Rpc.split (60 :: (tag ++ [62])) (x ++ 60 :: 47 :: r) with
    | none =>
      rw [g2] at h
      injection h with h
      injection h with h _
      omega
    | some f =>
      rw [g2] at h
      dsimp only at h
      split at h
      · injection h with h
        injection h with h _
        omega
      · exact body f g2 h

/-- The tags of parameters. -/
def Tag (tag : Bytes) : Prop := ∃ c q, tag = c :: q ∧ c ≠ 47 ∧ c ≠ 118 ∧ 60 ∉ tag

theorem free_content {p : Bytes} (hp : 60 ∉ p) {tag w1 t w2 : Bytes} (hm : 60 ∉ tag) (ht : 60 ∉ t) (hw : 60 ∉ w2) (h1 : Free (60 :: p) w1)
    (h2 : ∀ s, startsWith (60 :: p) (60 :: (tag ++ s)) = false) (h3 : ∀ s, startsWith (60 :: p) (60 :: 47 :: (tag ++ s)) = false) :
    Free (60 :: p) (w1 ++ lit "<" ++ tag ++ lit ">" ++ t ++ lit "</" ++ tag ++ lit ">" ++ w2) := by
  have e : w1 ++ lit "<" ++ tag ++ lit ">" ++ t ++ lit "</" ++ tag ++ lit ">" ++ w2 =
      w1 ++ 60 :: (tag ++ (62 :: (t ++ (60 :: 47 :: (tag ++ 62 :: w2))))) := by simp [lit]
  rw [e]
  refine free_append hp h1 (free_cons (h2 _) ?_)
  have e2 : tag ++ (62 :: (t ++ (60 :: 47 :: (tag ++ 62 :: w2)))) = (tag ++ 62 :: t) ++ (60 :: 47 :: (tag ++ 62 :: w2)) := by simp
  rw [e2]
  refine free_skip (by simp [hm, ht]) (free_cons (h3 _) ?_)
  exact free_of_not_mem (by simp [hm, hw])

theorem xml_value {gap C r : Bytes} (hg : Free (lit "<value") gap) (hC : Free (lit "</value>") C) :
    findAt (lit "value") (gap ++ lit "<value>" ++ C ++ lit "</value>" ++ r) = some (gap.length + 7, C.length) := by
  have := findAt_spec (lit "value") gap C r (by decide) hg hC
  rw [show gap ++ lit "<value>" ++ C ++ lit "</value>" ++ r = gap ++ lit "<" ++ lit "value" ++ lit ">" ++ C ++ lit "</" ++ lit "value" ++ lit ">" ++ r from by simp [lit]]
  rw [this]
  rfl

theorem xml_found {gap w1 tag t w2 r : Bytes} (hT : Tag tag) (hg : Free (lit "<value") gap) (hw : Free (lit "</value>") w1) (hw' : Free (60 :: tag) w1)
    (ht : 60 ∉ t) (hw2 : 60 ∉ w2) :
    xmlNext tag (gap ++ lit "<value>" ++ w1 ++ lit "<" ++ tag ++ lit ">" ++ t ++ lit "</" ++ tag ++ (62 :: w2 ++ lit "</value>" ++ r)) =
      some (gap.length + 7 + (w1.length + tag.length + 2), t.length) := by
  obtain ⟨c, q, e, hc1, hc2, hm⟩ := hT
  have hC : Free (lit "</value>") (w1 ++ lit "<" ++ tag ++ lit ">" ++ t ++ lit "</" ++ tag ++ lit ">" ++ w2) := by
    refine free_content (p := lit "/value>") (by decide) hm ht hw2 hw (fun s => ?_) (fun s => ?_)
    · rw [e]
      simp only [startsWith, lit, List.cons_append]
      simp [List.isPrefixOf, Ne.symm hc1]
    · rw [e]
      simp only [startsWith, lit, List.cons_append]
      simp [List.isPrefixOf, Ne.symm hc2]
  have e1 : gap ++ lit "<value>" ++ w1 ++ lit "<" ++ tag ++ lit ">" ++ t ++ lit "</" ++ tag ++ (62 :: w2 ++ lit "</value>" ++ r) =
      gap ++ lit "<value>" ++ (w1 ++ lit "<" ++ tag ++ lit ">" ++ t ++ lit "</" ++ tag ++ lit ">" ++ w2) ++ lit "</value>" ++ r := by simp [lit]
  unfold xmlNext
  rw [e1, xml_value hg hC]
  dsimp only
  have e2 : (gap ++ lit "<value>" ++ (w1 ++ lit "<" ++ tag ++ lit ">" ++ t ++ lit "</" ++ tag ++ lit ">" ++ w2) ++ lit "</value>" ++ r).drop (gap.length + 7) =
      w1 ++ lit "<" ++ tag ++ lit ">" ++ t ++ lit "</" ++ tag ++ lit ">" ++ (w2 ++ lit "</value>" ++ r) := by
    rw [List.append_assoc, List.append_assoc, List.drop_left' (by simp [lit])]
    simp
  rw [e2, findAt_spec tag w1 t _ hm hw' (free_of_not_mem ht)]
  dsimp only
  rw [if_pos (by simp [lit]; omega)]

/-- Another tag is not found. -/
theorem xml_other {gap w1 tag t w2 r : Bytes} (other : Bytes) (hT : Tag tag) (hO : Tag other) (hg : Free (lit "<value") gap) (hw : Free (lit "</value>") w1)
    (hw' : Free (60 :: other) w1) (ht : 60 ∉ t) (hw2 : 60 ∉ w2) (hne : ∀ s, startsWith (60 :: other) (60 :: (tag ++ s)) = false) :
    xmlNext other (gap ++ lit "<value>" ++ w1 ++ lit "<" ++ tag ++ lit ">" ++ t ++ lit "</" ++ tag ++ (62 :: w2 ++ lit "</value>" ++ r)) = none := by
  obtain ⟨c, q, e, hc1, hc2, hm⟩ := hT
  obtain ⟨oc, oq, oe, oc1, oc2, om⟩ := hO
  have hC : Free (lit "</value>") (w1 ++ lit "<" ++ tag ++ lit ">" ++ t ++ lit "</" ++ tag ++ lit ">" ++ w2) := by
    refine free_content (p := lit "/value>") (by decide) hm ht hw2 hw (fun s => ?_) (fun s => ?_)
    · rw [e]
      simp only [startsWith, lit, List.cons_append]
      simp [List.isPrefixOf, Ne.symm hc1]
    · rw [e]
      simp only [startsWith, lit, List.cons_append]
      simp [List.isPrefixOf, Ne.symm hc2]
  have hO : Free (60 :: other) (w1 ++ lit "<" ++ tag ++ lit ">" ++ t ++ lit "</" ++ tag ++ lit ">" ++ w2) := by
    refine free_content om hm ht hw2 hw' hne (fun s => ?_)
    rw [oe]
    simp only [startsWith]
    simp [List.isPrefixOf, oc1]
  have e1 : gap ++ lit "<value>" ++ w1 ++ lit "<" ++ tag ++ lit ">" ++ t ++ lit "</" ++ tag ++ (62 :: w2 ++ lit "</value>" ++ r) =
      gap ++ lit "<value>" ++ (w1 ++ lit "<" ++ tag ++ lit ">" ++ t ++ lit "</" ++ tag ++ lit ">" ++ w2) ++ lit "</value>" ++ r := by simp [lit]
  unfold xmlNext
  rw [e1, xml_value hg hC]
  dsimp only
  generalize w1 ++ lit "<" ++ tag ++ lit ">" ++ t ++ lit "</" ++ tag ++ lit ">" ++ w2 = C at hO
  have e2 : (gap ++ lit "<value>" ++ C ++ lit "</value>" ++ r).drop (gap.length + 7) = C ++ 60 :: 47 :: (lit "value>" ++ r) := by
    rw [List.append_assoc, List.append_assoc, List.drop_left' (by simp [lit])]
    simp [lit]
  rw [e2]
  cases g : findAt other (C ++ 60 :: 47 :: (lit "value>" ++ r)) with
  | none => rfl
  | some ol =>
    obtain ⟨o, l⟩ := ol
    have := findAt_beyond other C _ om hO (by rw [oe]; simp [oc1]) (by rw [oe]; simp) o l g
    dsimp only
    rw [if_neg (by omega)]

theorem tags : Tag (lit "i4") ∧ Tag (lit "int") ∧ Tag (lit "string") ∧ Tag (lit "boolean") := by
  refine ⟨⟨105, lit "4", ?_⟩, ⟨105, lit "nt", ?_⟩, ⟨115, lit "tring", ?_⟩, ⟨98, lit "oolean", ?_⟩⟩ <;> decide

theorem drop_to (gap w1 tag t R : Bytes) : (gap ++ lit "<value>" ++ w1 ++ lit "<" ++ tag ++ lit ">" ++ t ++ lit "</" ++ tag ++ R).drop
    (gap.length + 7 + (w1.length + tag.length + 2)) = t ++ (lit "</" ++ tag ++ R) := by
  have e : gap ++ lit "<value>" ++ w1 ++ lit "<" ++ tag ++ lit ">" ++ t ++ lit "</" ++ tag ++ R =
      (gap ++ lit "<value>" ++ w1 ++ lit "<" ++ tag ++ lit ">") ++ (t ++ (lit "</" ++ tag ++ R)) := by simp
  rw [e, List.drop_left' (by simp [lit]; omega)]

theorem skip_to (gap w1 tag t R : Bytes) (k : Nat) (hk : k = tag.length + 2) :
    skip (gap.length + 7 + (w1.length + tag.length + 2) + t.length + k) (gap ++ lit "<value>" ++ w1 ++ lit "<" ++ tag ++ lit ">" ++ t ++ lit "</" ++ tag ++ R) = some R := by
  have e : gap ++ lit "<value>" ++ w1 ++ lit "<" ++ tag ++ lit ">" ++ t ++ lit "</" ++ tag ++ R =
      (gap ++ lit "<value>" ++ w1 ++ lit "<" ++ tag ++ lit ">" ++ t ++ lit "</" ++ tag) ++ R := by simp
  have hl : (gap ++ lit "<value>" ++ w1 ++ lit "<" ++ tag ++ lit ">" ++ t ++ lit "</" ++ tag).length =
      gap.length + 7 + (w1.length + tag.length + 2) + t.length + k := by simp [lit]; omega
  unfold skip
  rw [e, if_pos (by rw [List.length_append, hl]; omega), List.drop_left' hl]

theorem xmlInt_ok (i : Int) (h1 : -2147483648 ≤ i) (h2 : i ≤ 2147483647) (gap w1 tag R : Bytes) (k : Nat) (hk : k = tag.length + 2) :
    xmlInt (gap ++ lit "<value>" ++ w1 ++ lit "<" ++ tag ++ lit ">" ++ decInt i ++ lit "</" ++ tag ++ R) k
      (gap.length + 7 + (w1.length + tag.length + 2), (decInt i).length) = (some i, some R) := by
  unfold xmlInt
  rw [drop_to]
  obtain ⟨b, t, e, hb⟩ := decInt_cons i
  have hi := intOf_decInt i h1 h2 (lit "</" ++ tag ++ R) (fun b hb => by injection hb with hb; subst hb; rfl)
  have hs := skip_to gap w1 tag (decInt i) R k hk
  rw [e] at hi hs ⊢
  dsimp only [List.cons_append] at hi ⊢
  rw [if_pos hb, hi]
  rw [hs]

theorem not_lt_decInt (i : Int) : (60 : UInt8) ∉ decInt i := fun h => (numeric_iff _ (decInt_numeric i _ h)).2.2.2.2.1 rfl

theorem xml_int (i : Int) (s rest : Bytes) (h : One .xml (.int i) s rest) : nextInt .xml s = (some i, some rest) := by
  cases h with
  | xml _ gap w1 tag t w2 r hg hw hx hw2 =>
    obtain ⟨o1, o2, o3, o4, o5⟩ := hw
    cases hx with
    | i4 _ h1 h2 =>
      unfold nextInt
      dsimp only
      rw [xml_found tags.1 hg o5 o1 (not_lt_decInt i) hw2]
      exact xmlInt_ok i h1 h2 gap w1 (lit "i4") _ 4 rfl
    | int _ h1 h2 =>
      unfold nextInt
      dsimp only
      rw [xml_other (lit "i4") tags.2.1 tags.1 hg o5 o1 (not_lt_decInt i) hw2 (fun s => rfl)]
      dsimp only
      rw [xml_found tags.2.1 hg o5 o2 (not_lt_decInt i) hw2]
      exact xmlInt_ok i h1 h2 gap w1 (lit "int") _ 5 rfl

theorem xml_str (v s rest : Bytes) (h : One .xml (.str v) s rest) : nextStr .xml s = (some v, some rest) ∧ nextInt .xml s = (none, some s) := by
  cases h with
  | xml _ gap w1 tag t w2 r hg hw hx hw2 =>
    obtain ⟨o1, o2, o3, o4, o5⟩ := hw
    cases hx with
    | str _ hv =>
      constructor
      · unfold nextStr
        dsimp only
        rw [xml_found tags.2.2.1 hg o5 o4 hv hw2]
        dsimp only
        rw [drop_to, skip_to _ _ _ _ _ 8 rfl, List.take_left]
      · unfold nextInt
        dsimp only
        rw [xml_other (lit "i4") tags.2.2.1 tags.1 hg o5 o1 hv hw2 (fun s => rfl),
          xml_other (lit "int") tags.2.2.1 tags.2.1 hg o5 o2 hv hw2 (fun s => rfl)]

theorem xml_bool (b : Bool) (s rest : Bytes) (h : One .xml (.bool b) s rest) : nextBool .xml s = (some b, some rest) := by
  cases h with
  | xml _ gap w1 tag t w2 r hg hw hx hw2 =>
    obtain ⟨o1, o2, o3, o4, o5⟩ := hw
    cases hx with
    | yes =>
      unfold nextBool
      dsimp only
      rw [xml_found tags.2.2.2 hg o5 o3 (by decide) hw2]
      dsimp only
      rw [drop_to, skip_to _ _ _ _ _ 9 rfl]
      rfl
    | no =>
      unfold nextBool
      dsimp only
      rw [xml_found tags.2.2.2 hg o5 o3 (by decide) hw2]
      dsimp only
      rw [drop_to, skip_to _ _ _ _ _ 9 rfl]
      rfl

theorem xml_none (tag s : Bytes) (h : Free (lit "<value") s) : xmlNext tag s = none := by
  unfold xmlNext
  rw [show findAt (lit "value") s = none from ?_]
  unfold findAt
  rw [split_none (show Free (lit "<" ++ lit "value" ++ lit "/>") s from free_longer (q := lit "/>") h),
    split_none (show Free (lit "<" ++ lit "value" ++ lit ">") s from free_longer (q := lit ">") h)]

/-! ### All protocols -/

/-- C110: a parameter is read as it was sent, and reading goes on behind it. -/
theorem parameter_read (m : Mode) (s rest : Bytes) :
    (∀ i, One m (.int i) s rest → nextInt m s = (some i, some rest)) ∧ (∀ b, One m (.bool b) s rest → nextBool m s = (some b, some rest)) ∧
    (∀ v, One m (.str v) s rest → nextStr m s = (some v, some rest)) := by
  cases m with
  | get j => exact ⟨fun i => link_int j i s rest, fun b => link_bool j b s rest, fun v => link_str j v s rest⟩
  | json => exact ⟨fun i => json_int i s rest, fun b => json_bool b s rest, fun v h => (json_str v s rest h).1⟩
  | xml => exact ⟨fun i => xml_int i s rest, fun b => xml_bool b s rest, fun v h => (xml_str v s rest h).1⟩

/-- A text is not taken for a number, except in links. -/
theorem text_no_number (m : Mode) (s rest v : Bytes) (hm : m = .json ∨ m = .xml) (h : One m (.str v) s rest) : nextInt m s = (none, some s) := by
  rcases hm with rfl | rfl
  · exact (json_str v s rest h).2
  · exact (xml_str v s rest h).2

/-- C110: where no parameter follows none is read. -/
theorem nothing_read (m : Mode) (s : Bytes) (h : Ends m s) : nextInt m s = (none, some s) ∧ nextStr m s = (none, some s) ∧ nextBool m s = (none, some s) := by
  cases m with
  | json =>
    rcases ends_value s h with g | ⟨c, r, g⟩
    · refine ⟨?_, ?_, ?_⟩
      · unfold nextInt; dsimp only; rw [g]
      · unfold nextStr; dsimp only; rw [g]
      · unfold nextBool; dsimp only; rw [g]
    · refine ⟨?_, ?_, ?_⟩
      · unfold nextInt; dsimp only; rw [g]
      · unfold nextStr; dsimp only; rw [g]; rfl
      · unfold nextBool; dsimp only; rw [g]; rfl
  | xml =>
    cases h with
    | xml _ h =>
      refine ⟨?_, ?_, ?_⟩
      · unfold nextInt; dsimp only; rw [xml_none _ s h, xml_none _ s h]
      · unfold nextStr; dsimp only; rw [xml_none _ s h]
      · unfold nextBool; dsimp only; rw [xml_none _ s h]
  | get j =>
    cases h with
    | link _ _ h =>
      have hs : nextStr (.get j) s = (none, some s) := by unfold nextStr; dsimp only; rw [afterEq_none s h]
      refine ⟨?_, hs, ?_⟩
      · unfold nextInt; dsimp only; rw [afterEq_none s h]
      · unfold nextBool; dsimp only; rw [hs]

/-! ### Commands -/

theorem one_shorter {m : Mode} {a : Arg} {s rest : Bytes} (h : One m a s rest) : rest.length < s.length := by
  cases h <;> simp [lit] <;> omega

theorem sent_length {m : Mode} {tail : Bytes} {as : List Arg} {s : Bytes} (h : Sent m tail as s) : as.length + tail.length ≤ s.length := by
  induction h with
  | nil => simp
  | cons a as s rest h1 _ ih =>
    have := one_shorter h1
    simp only [List.length_cons]
    omega

theorem sent_cons {m : Mode} {tail : Bytes} {a : Arg} {as : List Arg} {s : Bytes} (h : Sent m tail (a :: as) s) : ∃ rest, One m a s rest ∧ Sent m tail as rest := by
  cases h with
  | cons _ _ _ rest h1 h2 => exact ⟨rest, h1, h2⟩

theorem sent_nil {m : Mode} {tail s : Bytes} (h : Sent m tail [] s) : s = tail := by cases h; rfl

theorem ask_int {m : Mode} {i : Int} {s rest : Bytes} (h : One m (.int i) s rest) : ask (nextInt m) (some s) = some (some i, some rest) := by
  unfold ask; rw [Option.map_some, (parameter_read m s rest).1 i h]

theorem ask_bool {m : Mode} {b : Bool} {s rest : Bytes} (h : One m (.bool b) s rest) : ask (nextBool m) (some s) = some (some b, some rest) := by
  unfold ask; rw [Option.map_some, (parameter_read m s rest).2.1 b h]

theorem ask_str {m : Mode} {v : Bytes} {s rest : Bytes} (h : One m (.str v) s rest) : ask (nextStr m) (some s) = some (some v, some rest) := by
  unfold ask; rw [Option.map_some, (parameter_read m s rest).2.2 v h]

/-- No number follows: no parameter at all or, in JSON and XML, a text. -/
def NoInt (m : Mode) (s : Bytes) : Prop := Ends m s ∨ (m = .json ∨ m = .xml) ∧ ∃ v r, One m (.str v) s r

theorem ask_no_int {m : Mode} {s : Bytes} (h : NoInt m s) : ask (nextInt m) (some s) = some (none, some s) := by
  unfold ask
  rw [Option.map_some]
  rcases h with h | ⟨hm, v, r, h⟩
  · rw [(nothing_read m s h).1]
  · rw [text_no_number m s r v hm h]

theorem ints_spec (m : Mode) (tail : Bytes) (ht : NoInt m tail) : ∀ (ids : List Int) (s : Bytes) (k : Nat), Sent m tail (ids.map .int) s → ids.length < k →
    ints m k (some s) = some ids
  | [], s, 0, _, hk => absurd hk (by simp)
  | _ :: _, s, 0, _, hk => absurd hk (by simp)
  | [], s, k + 1, h, _ => by
    have := sent_nil h
    subst this
    unfold ints
    rw [ask_no_int ht]
  | i :: ids, s, k + 1, h, hk => by
    obtain ⟨rest, h1, h2⟩ := sent_cons h
    unfold ints
    rw [ask_int h1]
    dsimp only
    rw [ints_spec m tail ht ids rest k h2 (by simp at hk; omega)]
    rfl

theorem action_found (name : Bytes) (action : String) (ha : action ∈ actions) (hs : OptStore.Same name (lit action)) :
    actions.find? (fun a => Rpc.eqNoCase name (lit a)) = some action := by
  have key : ∀ a ∈ actions, ∀ b ∈ actions, OptStore.Same (lit a) (lit b) → a = b := by decide +kernel
  cases g : actions.find? (fun a => Rpc.eqNoCase name (lit a)) with
  | none =>
    have := List.find?_eq_none.1 g action ha
    exact absurd ((OptStore.same_iff _ _).2 hs) this
  | some a =>
    have h1 := List.mem_of_find?_eq_some g
    have h2 := (OptStore.same_iff _ _).1 (List.find?_some (p := fun a => Rpc.eqNoCase name (lit a)) g)
    rw [key a h1 action ha (h2.symm.trans hs)]

/-- C110: `editqueue` with a command, a text and numbers does this command with this text for these entries, in this order. -/
theorem edit_received (m : Mode) (hm : m = .json ∨ m = .xml) (s tail name args value : Bytes) (action : String) (ids : List Int) (ha : action ∈ actions)
    (hs : OptStore.Same name (lit action)) (hd : decode m args = some value) (h : Sent m tail (.str name :: .str args :: ids.map .int) s) (ht : NoInt m tail) :
    editQueue m s = some (.call ⟨action, value, ids⟩) := by
  have hl := sent_length h
  simp only [List.length_cons, List.length_map] at hl
  obtain ⟨r1, h1, h⟩ := sent_cons h
  obtain ⟨r2, h2, h⟩ := sent_cons h
  unfold editQueue
  simp only [ask_str h1, bind, Option.bind]
  rw [action_found name action ha hs]
  simp only [ask_no_int (Or.inr ⟨hm, args, r2, h2⟩), ask_str h2, hd]
  rw [ints_spec m tail ht ids r2 _ h (by omega)]

/-- C110: the form with a number before the text: the number is the distance for the commands which move entries, the others ignore it. -/
theorem edit_received_offset (m : Mode) (s tail name args value : Bytes) (offset : Int) (action : String) (ids : List Int) (ha : action ∈ actions)
    (hs : OptStore.Same name (lit action)) (hd : decode m args = some value)
    (h : Sent m tail (.str name :: .int offset :: .str args :: ids.map .int) s) (ht : NoInt m tail) :
    editQueue m s = some (.call ⟨action, if action = "FileMoveOffset" ∨ action = "GroupMoveOffset" then decInt offset else value, ids⟩) := by
  have hl := sent_length h
  simp only [List.length_cons, List.length_map] at hl
  obtain ⟨r1, h1, h⟩ := sent_cons h
  obtain ⟨r2, h2, h⟩ := sent_cons h
  obtain ⟨r3, h3, h⟩ := sent_cons h
  unfold editQueue
  simp only [ask_str h1, bind, Option.bind]
  rw [action_found name action ha hs]
  simp only [ask_int h2, ask_str h3, hd]
  rw [ints_spec m tail ht ids r3 _ h (by omega)]

/-- The parameters of `saveconfig` for some options, written with `enc`: pairs of texts, in JSON objects with the fields Name and Value. -/
def optionArgs (m : Mode) (enc : Bytes → Bytes) (os : List (Bytes × Bytes)) : List Arg :=
  os.flatMap fun o => if isJson m then [.str (lit "Name"), .str (enc o.1), .str (lit "Value"), .str (enc o.2)] else [.str (enc o.1), .str (enc o.2)]

theorem ask_ends {m : Mode} {s : Bytes} (h : Ends m s) : ask (nextStr m) (some s) = some (none, some s) := by
  unfold ask; rw [Option.map_some, (nothing_read m s h).2.1]

theorem pair_ends {m : Mode} {s : Bytes} (h : Ends m s) (n : Bool) : pair m n (some s) = some (none, some s) := by
  unfold pair
  cases n
  · simp [ask_ends h]
  · simp [ask_ends h]

theorem options_spec (m : Mode) (enc : Bytes → Bytes) (tail : Bytes) (ht : Ends m tail) : ∀ (os : List (Bytes × Bytes)) (s : Bytes) (k : Nat),
    (∀ o ∈ os, decode m (enc o.1) = some o.1 ∧ decode m (enc o.2) = some o.2) → Sent m tail (optionArgs m enc os) s → os.length < k →
    saveConfig m k (some s) = some os
  | [], s, 0, _, _, hk => absurd hk (by simp)
  | _ :: _, s, 0, _, _, hk => absurd hk (by simp)
  | [], s, k + 1, _, h, _ => by
    have := sent_nil h
    subst this
    unfold saveConfig
    rw [pair_ends ht]
  | o :: os, s, k + 1, hd, h, hk => by
    have hp : ∃ rest, pair m (isJson m) (some s) = some (some (enc o.1, enc o.2), some rest) ∧ Sent m tail (optionArgs m enc os) rest := by
      unfold optionArgs at h
      rw [List.flatMap_cons] at h
      unfold pair
      cases g : isJson m
      · rw [g, if_neg (by decide)] at h
        obtain ⟨r1, h1, h⟩ := sent_cons h
        obtain ⟨r2, h2, h⟩ := sent_cons h
        refine ⟨r2, ?_, ?_⟩
        · simp [ask_str h1, ask_str h2]
        · unfold optionArgs; rw [g]; exact h
      · rw [g, if_pos rfl] at h
        obtain ⟨r1, h1, h⟩ := sent_cons h
        obtain ⟨r2, h2, h⟩ := sent_cons h
        obtain ⟨r3, h3, h⟩ := sent_cons h
        obtain ⟨r4, h4, h⟩ := sent_cons h
        refine ⟨r4, ?_, ?_⟩
        · simp [ask_str h1, ask_str h2, ask_str h3, ask_str h4]
        · unfold optionArgs; rw [g]; exact h
    obtain ⟨rest, hp, h⟩ := hp
    unfold saveConfig
    rw [hp]
    dsimp only
    have := hd o List.mem_cons_self
    rw [this.1, this.2]
    dsimp only
    rw [options_spec m enc tail ht os rest k (fun o ho => hd o (List.mem_cons_of_mem _ ho)) h (by simp at hk; omega)]
    rfl

theorem options_length (m : Mode) (enc : Bytes → Bytes) (os : List (Bytes × Bytes)) : os.length ≤ (optionArgs m enc os).length := by
  unfold optionArgs
  induction os with
  | nil => simp
  | cons o os ih =>
    rw [List.flatMap_cons, List.length_append, List.length_cons]
    have : 1 ≤ (if isJson m = true then [Arg.str (lit "Name"), .str (enc o.1), .str (lit "Value"), .str (enc o.2)] else [.str (enc o.1), .str (enc o.2)]).length := by
      split <;> simp
    omega

/-- C110: `saveconfig` saves exactly the options which were sent, in this order. `enc` is how the client writes texts. -/
theorem config_received (m : Mode) (enc : Bytes → Bytes) (s tail : Bytes) (os : List (Bytes × Bytes)) (hd : ∀ o ∈ os, decode m (enc o.1) = some o.1 ∧ decode m (enc o.2) = some o.2)
    (h : Sent m tail (optionArgs m enc os) s) (ht : Ends m tail) : saveConfig m (s.length + 1) (some s) = some os := by
  have := sent_length h
  have := options_length m enc os
  exact options_spec m enc tail ht os s _ hd h (by omega)

theorem params_spec (m : Mode) (tail : Bytes) (ht : Ends m tail) : ∀ (ps acc : List (Bytes × Bytes)) (s : Bytes) (k : Nat),
    Sent m tail (ps.flatMap fun p => [.str p.1, .str p.2]) s → ps.length < k →
    paramLoop m k (some s) acc = some (some (ps.foldl (fun a p => Record.setParameter a p.1 p.2) acc))
  | [], _, s, 0, _, hk => absurd hk (by simp)
  | _ :: _, _, s, 0, _, hk => absurd hk (by simp)
  | [], acc, s, k + 1, h, _ => by
    have := sent_nil h
    subst this
    unfold paramLoop
    rw [ask_ends ht]
    rfl
  | p :: ps, acc, s, k + 1, h, hk => by
    rw [List.flatMap_cons] at h
    obtain ⟨r1, h1, h⟩ := sent_cons h
    obtain ⟨r2, h2, h⟩ := sent_cons h
    unfold paramLoop
    rw [ask_str h1]
    dsimp only
    rw [ask_str h2]
    dsimp only
    rw [params_spec m tail ht ps _ r2 k h (by simp at hk; omega)]
    rfl

theorem mode_found (dm : Bytes) (w : String) (hw : w ∈ ["score", "all", "force"]) (hs : OptStore.Same dm (lit w)) : modeOf dm = some w := by
  have key : ∀ a ∈ ["score", "all", "force"], ∀ b ∈ ["score", "all", "force"], OptStore.Same (lit a) (lit b) → a = b := by decide +kernel
  unfold modeOf
  cases g : ["score", "all", "force"].find? (fun a => Rpc.eqNoCase dm (lit a)) with
  | none =>
    have := List.find?_eq_none.1 g w hw
    exact absurd ((OptStore.same_iff _ _).2 hs) this
  | some a =>
    have h1 := List.mem_of_find?_eq_some g
    have h2 := (OptStore.same_iff _ _).1 (List.find?_some (p := fun a => Rpc.eqNoCase dm (lit a)) g)
    rw [key a h1 w hw (h2.symm.trans hs)]

/-- C110: `append` adds what was sent. The names and values of the parameters are taken as they are written (see `params_not_decoded`). -/
theorem append_received_partial (m : Mode) (s tail f c cat key dm f' c' cat' key' : Bytes) (pr score : Int) (top paused : Bool) (mode : String) (ps : List (Bytes × Bytes))
    (hf : decode m f = some f') (hc : decode m c = some c') (hcat : decode m cat = some cat') (hk : decode m key = some key')
    (hw : mode ∈ ["score", "all", "force"]) (hs : OptStore.Same dm (lit mode))
    (h : Sent m tail ([.str f, .str c, .str cat, .int pr, .bool top, .bool paused, .str key, .int score, .str dm] ++ ps.flatMap fun p => [.str p.1, .str p.2]) s)
    (ht : Ends m tail) :
    append m s = some (.call
      { name := f', content := c', category := cat', priority := pr, top := top, paused := paused, dupeKey := key', dupeScore := score, dupeMode := mode,
        params := ps.foldl (fun a p => Record.setParameter a p.1 p.2) [] }) := by
  have hl := sent_length h
  have hp : ps.length ≤ (ps.flatMap fun p => [Arg.str p.1, Arg.str p.2]).length := by
    clear h hl
    induction ps with
    | nil => simp
    | cons p ps ih =>
      rw [List.flatMap_cons, List.length_append]
      simp at ih ⊢
      omega
  rw [List.length_append] at hl
  obtain ⟨r1, h1, h⟩ := sent_cons h
  obtain ⟨r2, h2, h⟩ := sent_cons h
  obtain ⟨r3, h3, h⟩ := sent_cons h
  obtain ⟨r4, h4, h⟩ := sent_cons h
  obtain ⟨r5, h5, h⟩ := sent_cons h
  obtain ⟨r6, h6, h⟩ := sent_cons h
  obtain ⟨r7, h7, h⟩ := sent_cons h
  obtain ⟨r8, h8, h⟩ := sent_cons h
  obtain ⟨r9, h9, h⟩ := sent_cons h
  unfold append
  simp only [ask_str h1, ask_str h2, ask_str h3, ask_int h4, ask_bool h5, bind, Option.bind, hf, hcat, Option.getD_some, Option.isSome_some, if_true, hc]
  unfold appendRest
  simp only [ask_bool h6, ask_str h7, ask_int h8, ask_str h9, bind, Option.bind, hk, mode_found dm mode hw hs, if_true]
  rw [params_spec m tail ht ps [] r9 _ h (by omega)]

/-- C110: `editserver` switches exactly the servers which were named, as it was asked. -/
theorem servers_received (m : Mode) (tail : Bytes) (ht : NoInt m tail) : ∀ (vs : List (Int × Bool)) (s : Bytes) (k : Nat) (first : Bool),
    Sent m tail (vs.flatMap fun v => [.int v.1, .bool v.2]) s → vs.length < k → servers m k first (some s) = some (vs, first && vs.isEmpty)
  | [], s, 0, _, _, hk => absurd hk (by simp)
  | _ :: _, s, 0, _, _, hk => absurd hk (by simp)
  | [], s, k + 1, first, h, _ => by
    have := sent_nil h
    subst this
    unfold servers
    rw [ask_no_int ht]
    simp
  | v :: vs, s, k + 1, first, h, hk => by
    rw [List.flatMap_cons] at h
    obtain ⟨r1, h1, h⟩ := sent_cons h
    obtain ⟨r2, h2, h⟩ := sent_cons h
    unfold servers
    rw [ask_int h1]
    dsimp only
    rw [ask_bool h2]
    dsimp only
    rw [servers_received m tail ht vs r2 k false h (by simp at hk; omega)]
    simp

/-- C110: the speed limit and the delay are those which were sent, negative ones are refused. Limits of 2 GB/s and more are not covered. -/
theorem rate_received (m : Mode) (s rest : Bytes) (i : Int) (h : One m (.int i) s rest) (hi : i < 2097152) :
    rate m s = (if i < 0 then .error 2 else .call (i * 1024)) ∧ scheduleResume m s = if i < 0 then .error 2 else .call i := by
  unfold rate scheduleResume
  rw [(parameter_read m s rest).1 i h]
  dsimp only
  refine ⟨?_, rfl⟩
  split
  · rfl
  · rw [Int.bmod_eq_of_le (by omega) (by omega)]

/-! ### Whole requests -/

/-- Texts of parameters in an array of JSON, separated by commas. -/
def commas : List Bytes → Bytes
  | [] => []
  | [t] => t
  | t :: u :: ts => t ++ lit "," ++ commas (u :: ts)

/-- Each text is the text of the parameter at the same place. -/
inductive Texts : List Arg → List Bytes → Prop where
  | nil : Texts [] []
  | cons (a : Arg) (t : Bytes) (as : List Arg) (ts : List Bytes) : Json a t → Texts as ts → Texts (a :: as) (t :: ts)

theorem array_sent (tail : Bytes) : ∀ (as : List Arg) (ts : List Bytes) (lead : Bytes), as ≠ [] → Texts as ts → (∀ c ∈ lead, JsonText.isLead c = true) →
    Sent .json tail as (lead ++ commas ts ++ 93 :: tail)
  | [], _, _, h, _, _ => absurd rfl h
  | [a], _, lead, _, h, hl => by
    cases h with
    | cons _ t _ ts h1 h2 =>
      cases h2
      exact .cons a [] _ tail (.json a lead t 93 tail hl h1 rfl) .nil
  | a :: b :: as, _, lead, _, h, hl => by
    cases h with
    | cons _ t _ ts h1 h2 =>
      have ih := fun ts' (h : Texts (b :: as) ts') => array_sent tail (b :: as) ts' [] (by simp) h (by simp)
      cases h2 with
      | cons _ u _ us h3 h4 =>
        have := ih _ (.cons b u as us h3 h4)
        have h5 := One.json a lead t 44 (commas (u :: us) ++ 93 :: tail) hl h1 rfl
        have e : lead ++ commas (t :: u :: us) ++ 93 :: tail = lead ++ t ++ 44 :: (commas (u :: us) ++ 93 :: tail) := by simp [commas, lit]
        rw [e]
        exact .cons a _ _ _ h5 this

theorem split_at (p x y : Bytes) (hp : p ≠ []) (h : Free p (x ++ p.dropLast)) : Rpc.split p (x ++ p ++ y) = some (x, y) := by
  have hs := Rpc.split_complete p x y
  cases g : Rpc.split p (x ++ p ++ y) with
  | none => rw [g] at hs; exact nomatch hs
  | some r =>
    obtain ⟨u, v⟩ := r
    have e := Rpc.split_some g
    have hmin := split_min p _ u v x y g rfl
    have hl : u.length = x.length := by
      refine Classical.byContradiction fun hne => ?_
      have hlt : u.length < x.length := by omega
      have hpl : 0 < p.length := List.length_pos_iff.2 hp
      have ht := congrArg (List.take (x.length + (p.length - 1))) e
      have e1 : (x ++ p ++ y).take (x.length + (p.length - 1)) = x ++ p.dropLast := by
        rw [List.append_assoc, List.take_append, List.take_of_length_le (by omega),
          show x.length + (p.length - 1) - x.length = p.length - 1 from by omega, List.take_append_of_le_length (by omega), List.dropLast_eq_take]
      have e2 : (u ++ p ++ v).take (x.length + (p.length - 1)) = u ++ p ++ v.take (x.length + (p.length - 1) - (u ++ p).length) := by
        rw [List.take_append, List.take_of_length_le (by rw [List.length_append]; omega)]
      rw [e1, e2] at ht
      exact h u _ ht
    rw [List.append_assoc, List.append_assoc] at e
    have h2 := List.append_inj e hl.symm
    rw [← h2.1, ← List.append_cancel_left h2.2]

/-- C110: the parameters of a request in JSON are those in the array of the member `params`, if these characters in quotes do not occur before. -/
theorem request_read (before lead tail : Bytes) (as : List Arg) (ts : List Bytes) (ha : as ≠ []) (hb : Free (lit "\"params\"") (before ++ lit "\"params"))
    (ht : Texts as ts) (hl : ∀ c ∈ lead, JsonText.isLead c = true) :
    Sent .json tail as (prepare .json (before ++ lit "\"params\"" ++ (lead ++ commas ts ++ lit "]" ++ tail))) := by
  have h := split_at (lit "\"params\"") before (lead ++ commas ts ++ lit "]" ++ tail) (by decide) hb
  unfold prepare
  dsimp only
  rw [h]
  have := array_sent tail as ts lead ha ht hl
  rw [show lead ++ commas ts ++ lit "]" ++ tail = lead ++ commas ts ++ 93 :: tail from by simp [lit]]
  exact this

/-- A request without the member `params` has no parameters. -/
theorem request_none (s : Bytes) (h : Free (lit "\"params\"") s) : Ends .json (prepare .json s) := by
  unfold prepare
  dsimp only
  rw [split_none h]
  exact .empty [] (by simp)

theorem noMarkup_free {s : Bytes} (h : XmlText.NoMarkup s) : 60 ∉ s := by
  induction h with
  | nil => simp
  | plain c r _ _ hc _ ih =>
    intro hm
    rcases List.mem_cons.1 hm with e | hm
    · subst e; exact hc (by unfold XmlText.Markup; decide)
    · exact ih hm
  | named e c r hn _ ih =>
    intro hm
    rcases List.mem_append.1 hm with hm | hm
    · cases hn <;> exact absurd hm (by decide)
    · exact ih hm
  | ref d r _ hd _ _ ih =>
    intro hm
    simp only [List.mem_append] at hm
    rcases hm with ((hm | hm) | hm) | hm
    · exact absurd hm (by decide)
    · exact absurd (hd _ hm) (by decide)
    · exact absurd hm (by decide)
    · exact ih hm

/-- A text written by XmlEncode can be sent in XML, and printable characters arrive unchanged. -/
theorem xml_text (v : Bytes) (h : ∀ c ∈ v, 32 ≤ c.toNat ∧ c.toNat ≤ 126) :
    Xml (.str (XmlText.xmlEncode v)) (lit "string") (XmlText.xmlEncode v) ∧ decode .xml (XmlText.xmlEncode v) = some v :=
  ⟨.str _ (noMarkup_free (XmlText.xml_encode_no_markup v)), XmlText.xml_round_trip v h⟩

/-! ### Where parameters do not arrive -/

/-- A parameter without anything around it, in XML. -/
def plainXml (tag t : Bytes) : Bytes := lit "<value><" ++ tag ++ lit ">" ++ t ++ lit "</" ++ tag ++ lit "></value>"

/-- C110 fails: names and values of the parameters of `append` are not decoded. -/
theorem params_not_decoded : ∃ s v w a, decode .xml v = some w ∧ v ≠ w ∧ append .xml s = some (.call a) ∧ a.params = [(lit "p", v)] ∧
    s = plainXml (lit "string") (lit "n") ++ plainXml (lit "string") (lit "c") ++ plainXml (lit "string") [] ++ plainXml (lit "i4") (lit "0") ++
      plainXml (lit "boolean") (lit "0") ++ plainXml (lit "boolean") (lit "0") ++ plainXml (lit "string") [] ++ plainXml (lit "i4") (lit "0") ++
      plainXml (lit "string") (lit "score") ++ plainXml (lit "string") (lit "p") ++ plainXml (lit "string") v :=
  ⟨_, lit "a&amp;b", lit "a&b", { name := lit "n", content := lit "c", category := [], priority := 0, top := false, paused := false, dupeKey := [], dupeScore := 0, dupeMode := "score", params := [(lit "p", lit "a&amp;b")] }, by decide +kernel, by decide +kernel, by decide +kernel, by decide +kernel, rfl⟩

theorem sent_append {m : Mode} {tail tail2 : Bytes} {as bs : List Arg} {s : Bytes} (h : Sent m tail as s) (h2 : Sent m tail2 bs tail) : Sent m tail2 (as ++ bs) s := by
  induction h with
  | nil => exact h2
  | cons a as s rest h1 _ ih => exact .cons a _ s rest h1 ih

/-- C110 fails: if Parameters are left out, the member `id` behind `params` becomes a parameter of the download. -/
theorem id_becomes_parameter (s f c cat key dm f' c' cat' key' id r : Bytes) (pr score : Int) (top paused : Bool) (mode : String)
    (hf : decode .json f = some f') (hc : decode .json c = some c') (hcat : decode .json cat = some cat') (hk : decode .json key = some key')
    (hw : mode ∈ ["score", "all", "force"]) (hs : OptStore.Same dm (lit mode)) (hi : JsonText.Body false id) (hr : ∀ c ∈ r, JsonText.isLead c = true)
    (h : Sent .json (lit ",\"id\":" ++ (34 :: id ++ [34]) ++ lit "}" ++ r)
      [.str f, .str c, .str cat, .int pr, .bool top, .bool paused, .str key, .int score, .str dm] s) :
    append .json s = some (.call
      { name := f', content := c', category := cat', priority := pr, top := top, paused := paused, dupeKey := key', dupeScore := score, dupeMode := mode,
        params := Record.setParameter [] (lit "id") id }) := by
  have h2 : Sent .json r [.str (lit "id"), .str id] (lit ",\"id\":" ++ (34 :: id ++ [34]) ++ lit "}" ++ r) := by
    have hb : JsonText.Body false (lit "id") := .plain _ _ _ (by decide) (by decide) (by decide) (.plain _ _ _ (by decide) (by decide) (by decide) (.nil _))
    have h3 := One.key (lit ",") (lit "id") ([] ++ (34 :: id ++ [34]) ++ 125 :: r) (by decide) hb
    have h4 := One.json (.str id) [] _ 125 r (by simp) (Json.str id hi) (by decide)
    rw [show lit ",\"id\":" ++ (34 :: id ++ [34]) ++ lit "}" ++ r = lit "," ++ (34 :: lit "id" ++ [34]) ++ 58 :: ([] ++ (34 :: id ++ [34]) ++ 125 :: r) from by simp [lit]]
    exact .cons _ _ _ _ h3 (.cons _ _ _ _ h4 .nil)
  exact append_received_partial .json s r f c cat key dm f' c' cat' key' pr score top paused mode [(lit "id", id)] hf hc hcat hk hw hs (sent_append h h2) (.empty r hr)

/-- C110 fails: if it is a number the call is refused. -/
theorem id_refuses (s f c cat key dm f' c' cat' key' r : Bytes) (pr score id : Int) (top paused : Bool) (mode : String)
    (hf : decode .json f = some f') (hc : decode .json c = some c') (hcat : decode .json cat = some cat') (hk : decode .json key = some key')
    (hw : mode ∈ ["score", "all", "force"]) (hs : OptStore.Same dm (lit mode))
    (h : Sent .json (lit ",\"id\":" ++ decInt id ++ lit "}" ++ r)
      [.str f, .str c, .str cat, .int pr, .bool top, .bool paused, .str key, .int score, .str dm] s) :
    append .json s = some (.error 2) := by
  have hl := sent_length h
  obtain ⟨r1, h1, h⟩ := sent_cons h
  obtain ⟨r2, h2, h⟩ := sent_cons h
  obtain ⟨r3, h3, h⟩ := sent_cons h
  obtain ⟨r4, h4, h⟩ := sent_cons h
  obtain ⟨r5, h5, h⟩ := sent_cons h
  obtain ⟨r6, h6, h⟩ := sent_cons h
  obtain ⟨r7, h7, h⟩ := sent_cons h
  obtain ⟨r8, h8, h⟩ := sent_cons h
  obtain ⟨r9, h9, h⟩ := sent_cons h
  have := sent_nil h
  subst this
  obtain ⟨k, hk'⟩ : ∃ k, s.length = k + 1 := ⟨s.length - 1, by simp at hl; omega⟩
  unfold append
  simp only [ask_str h1, ask_str h2, ask_str h3, ask_int h4, ask_bool h5, bind, Option.bind, hf, hcat, Option.getD_some, Option.isSome_some, if_true, hc]
  unfold appendRest
  simp only [ask_bool h6, ask_str h7, ask_int h8, ask_str h9, bind, Option.bind, hk, mode_found dm mode hw hs, if_true]
  have hb : JsonText.Body false (lit "id") := .plain _ _ _ (by decide) (by decide) (by decide) (.plain _ _ _ (by decide) (by decide) (by decide) (.nil _))
  have h10 := One.key (lit ",") (lit "id") (decInt id ++ 125 :: r) (by decide) hb
  rw [show lit ",\"id\":" ++ decInt id ++ lit "}" ++ r = lit "," ++ (34 :: lit "id" ++ [34]) ++ 58 :: (decInt id ++ 125 :: r) from by simp [lit]]
  have h11 : ask (nextStr .json) (some (decInt id ++ 125 :: r)) = some (none, some (decInt id ++ 125 :: r)) := by
    obtain ⟨b, t, ht, hb⟩ := decInt_cons id
    have hn := decInt_numeric id
    rw [ht] at hn ⊢
    have := word_value [] b t 125 r (by simp) ⟨(numeric_iff b hb).2.2.1, (numeric_iff b hb).2.2.2.1⟩
        (fun x hx => ⟨(numeric_iff x (hn x hx)).1, (numeric_iff x (hn x hx)).2.1⟩) (by decide)
    rw [List.nil_append] at this
    unfold ask nextStr
    rw [Option.map_some]
    dsimp only
    rw [this]
    dsimp only
    rw [if_pos (by simp [(numeric_iff b hb).2.2.2.1])]
  have h12 : paramLoop .json (s.length + 1) (some (lit "," ++ (34 :: lit "id" ++ [34]) ++ 58 :: (decInt id ++ 125 :: r))) [] = some none := by
    unfold paramLoop
    rw [ask_str h10]
    dsimp only
    rw [h11]
  rw [h12]

/-- C110 fails: where a blank is written before the `}` of an option, the options which follow are not read, and `saveconfig` removes them
from the settings (C107). -/
theorem blank_truncates (n v rest : Bytes) (hn : JsonText.Body false n) (hv : JsonText.Body false v) (n' v' : Bytes) (dn : decode .json n = some n') (dv : decode .json v = some v') :
    ∀ s, s = lit ":[{\"Name\":\"" ++ n ++ lit "\",\"Value\":\"" ++ v ++ lit "\" }," ++ rest → saveConfig .json (s.length + 1) (some s) = some [(n', v')] := by
  intro s hs
  have b1 : JsonText.Body false (lit "Name") := .plain _ _ _ (by decide) (by decide) (by decide) (.plain _ _ _ (by decide) (by decide) (by decide)
    (.plain _ _ _ (by decide) (by decide) (by decide) (.plain _ _ _ (by decide) (by decide) (by decide) (.nil _))))
  have b2 : JsonText.Body false (lit "Value") := .plain _ _ _ (by decide) (by decide) (by decide) (.plain _ _ _ (by decide) (by decide) (by decide)
    (.plain _ _ _ (by decide) (by decide) (by decide) (.plain _ _ _ (by decide) (by decide) (by decide) (.plain _ _ _ (by decide) (by decide) (by decide) (.nil _)))))
  have h4 := One.json (.str v) [] _ 32 (lit "}," ++ rest) (by simp) (Json.str v hv) (by decide)
  have h3 := One.key [] (lit "Value") ([] ++ (34 :: v ++ [34]) ++ 32 :: (lit "}," ++ rest)) (by simp) b2
  have h2 := One.json (.str n) [] _ 44 ([] ++ (34 :: lit "Value" ++ [34]) ++ 58 :: ([] ++ (34 :: v ++ [34]) ++ 32 :: (lit "}," ++ rest))) (by simp) (Json.str n hn) (by decide)
  have h1 := One.key (lit ":[{") (lit "Name") ([] ++ (34 :: n ++ [34]) ++ 44 :: ([] ++ (34 :: lit "Value" ++ [34]) ++ 58 :: ([] ++ (34 :: v ++ [34]) ++ 32 :: (lit "}," ++ rest)))) (by decide) b1
  have he : Ends .json (lit "}," ++ rest) := .json [] (44 :: rest) 125 (by simp) (Or.inr rfl)
  have e : s = lit ":[{" ++ (34 :: lit "Name" ++ [34]) ++ 58 :: ([] ++ (34 :: n ++ [34]) ++ 44 :: ([] ++ (34 :: lit "Value" ++ [34]) ++ 58 :: ([] ++ (34 :: v ++ [34]) ++ 32 :: (lit "}," ++ rest)))) := by
    rw [hs]; simp [lit]
  rw [← e] at h1
  have hp : pair .json (isJson .json) (some s) = some (some (n, v), some (lit "}," ++ rest)) := by
    unfold pair
    simp only [isJson, if_true, ask_str h1, ask_str h2, ask_str h3, ask_str h4, bind, Option.bind]
  have hl : 0 < s.length := by rw [hs]; simp [lit]
  obtain ⟨k, hk⟩ : ∃ k, s.length = k + 1 := ⟨s.length - 1, by omega⟩
  rw [hk]
  unfold saveConfig
  rw [hp]
  dsimp only
  rw [dn, dv]
  dsimp only
  unfold saveConfig
  rw [pair_ends he]
  rfl

/-- C110 fails: in links a text is taken for a number, so that `editqueue` in its form without a number takes the number of the entry for
the text and changes nothing. -/
theorem link_args_lost : editQueue (.get true) (lit "c=GroupSetName&a=New&i=5") = some (.call ⟨"GroupSetName", lit "5", []⟩) := by decide +kernel

/-- C110 fails: a value of XML without a type, which is a text, is not read. -/
theorem untyped_refused (t r : Bytes) (h : 60 ∉ t) : (nextStr .xml (lit "<value>" ++ t ++ lit "</value>" ++ r)).1 = none := by
  unfold nextStr xmlNext
  dsimp only
  have hv := xml_value (gap := []) (C := t) (r := r) (free_of_not_mem (by simp)) (free_of_not_mem h)
  rw [List.nil_append] at hv
  rw [hv]
  dsimp only
  have e : (lit "<value>" ++ t ++ lit "</value>" ++ r).drop 7 = t ++ 60 :: 47 :: (lit "value>" ++ r) := by
    rw [List.append_assoc, List.append_assoc, List.drop_left' (by simp [lit])]
    simp [lit]
  show (match (match findAt (lit "string") ((lit "<value>" ++ t ++ lit "</value>" ++ r).drop 7) with
    | none => none
    | some c => if c.1 ≤ t.length then some ([].length + 7 + c.1, c.2) else none) with
    | none => (none, some (lit "<value>" ++ t ++ lit "</value>" ++ r))
    | some c => (some (((lit "<value>" ++ t ++ lit "</value>" ++ r).drop c.1).take c.2), skip (c.1 + c.2 + 8) (lit "<value>" ++ t ++ lit "</value>" ++ r)) : Option Bytes × Option Bytes).1 = none
  rw [e]
  cases g : findAt (lit "string") (t ++ 60 :: 47 :: (lit "value>" ++ r)) with
  | none => rfl
  | some ol =>
    obtain ⟨o, l⟩ := ol
    have := findAt_beyond (lit "string") t _ (by decide) (free_of_not_mem h) (by decide) (by decide) o l g
    dsimp only
    rw [if_neg (by omega)]

/-- C110 fails: the limit 4294967296 bytes per second (or any multiple) is no limit, and 2 GB/s is a negative one. -/
theorem rate_wraps (m : Mode) (s rest : Bytes) : (One m (.int 4194304) s rest → rate m s = .call 0) ∧ (One m (.int 2097152) s rest → rate m s = .call (-2147483648)) := by
  constructor <;> intro h <;> unfold rate <;> rw [(parameter_read m s rest).1 _ h] <;> rfl

/-- C110 fails: a member `id` with the value `params` before the parameters hides them. -/
theorem id_params_hides (r : Bytes) : rate .json (prepare .json (lit "{\"id\":\"params\",\"params\":[" ++ r)) = .error 2 := by
  have h := split_at (lit "\"params\"") (lit "{\"id\":") (lit ",\"params\":[" ++ r) (by decide) (by
    intro u v e
    have : Rpc.split (lit "\"params\"") (lit "{\"id\":" ++ (lit "\"params\"").dropLast) = none := by decide
    have g := Rpc.split_complete (lit "\"params\"") u v
    rw [← e, this] at g
    exact nomatch g)
  rw [show lit "{\"id\":" ++ lit "\"params\"" ++ (lit ",\"params\":[" ++ r) = lit "{\"id\":\"params\",\"params\":[" ++ r from by simp [lit]] at h
  unfold rate prepare
  dsimp only
  rw [h]
  dsimp only
  have hb : JsonText.Body false (lit "params") := .plain _ _ _ (by decide) (by decide) (by decide) (.plain _ _ _ (by decide) (by decide) (by decide)
    (.plain _ _ _ (by decide) (by decide) (by decide) (.plain _ _ _ (by decide) (by decide) (by decide) (.plain _ _ _ (by decide) (by decide) (by decide)
      (.plain _ _ _ (by decide) (by decide) (by decide) (.nil _))))))
  have := One.key (lit ",") (lit "params") (91 :: r) (by decide) hb
  rw [show lit ",\"params\":[" ++ r = lit "," ++ (34 :: lit "params" ++ [34]) ++ 58 :: 91 :: r from by simp [lit], (json_str _ _ _ this).2]

/-- C110 fails: a text which ends with a value makes the next read go behind the end of the text. -/
theorem read_beyond : editQueue .json (lit "\"FilePause\"") = none := by
  have hb : JsonText.Body false (lit "FilePause") := .plain _ _ _ (by decide) (by decide) (by decide) (.plain _ _ _ (by decide) (by decide) (by decide)
    (.plain _ _ _ (by decide) (by decide) (by decide) (.plain _ _ _ (by decide) (by decide) (by decide) (.plain _ _ _ (by decide) (by decide) (by decide)
      (.plain _ _ _ (by decide) (by decide) (by decide) (.plain _ _ _ (by decide) (by decide) (by decide) (.plain _ _ _ (by decide) (by decide) (by decide)
        (.plain _ _ _ (by decide) (by decide) (by decide) (.nil _)))))))))
  have := JsonText.string_value_found_partial [] (lit "FilePause") [] (by simp) hb
  rw [show [] ++ 34 :: lit "FilePause" ++ [34] = lit "\"FilePause\"" from by decide] at this
  have h : ask (nextStr .json) (some (lit "\"FilePause\"")) = some (some (lit "FilePause"), none) := by
    unfold ask nextStr
    rw [Option.map_some]
    dsimp only
    rw [this]
    decide +kernel
  unfold editQueue
  simp only [h, bind, Option.bind]
  rw [action_found (lit "FilePause") "FilePause" (by decide) rfl]
  rfl

/-! ### Examples -/

example : Sent .json (lit ",\"id\":1}") [.str (lit "GroupPause"), .str [], .int 5, .int (-7)]
    (prepare .json (lit "{\"method\":\"editqueue\",\"params\":[\"GroupPause\",\"\",5,-7],\"id\":1}")) := by
  have b : JsonText.Body false (lit "GroupPause") := by
    repeat' (first | exact .nil _ | refine .plain _ _ _ (by decide) (by decide) (by decide) ?_)
  have := request_read (lit "{\"method\":\"editqueue\",") (lit ":[") (lit ",\"id\":1}") [.str (lit "GroupPause"), .str [], .int 5, .int (-7)]
    [34 :: lit "GroupPause" ++ [34], 34 :: [] ++ [34], decInt 5, decInt (-7)] (by simp) (by
      intro u v e
      have : Rpc.split (lit "\"params\"") (lit "{\"method\":\"editqueue\"," ++ lit "\"params") = none := by decide
      have g := Rpc.split_complete (lit "\"params\"") u v
      rw [← e, this] at g
      exact nomatch g) (.cons _ _ _ _ (.str _ b) (.cons _ _ _ _ (.str _ (.nil _)) (.cons _ _ _ _ (.int 5 (by decide) (by decide)) (.cons _ _ _ _ (.int (-7) (by decide) (by decide)) .nil)))) (by decide)
  exact this

example : NoInt .json (lit ",\"id\":1}") := by
  have hb : JsonText.Body false (lit "id") := .plain _ _ _ (by decide) (by decide) (by decide) (.plain _ _ _ (by decide) (by decide) (by decide) (.nil _))
  exact Or.inr ⟨Or.inl rfl, _, _, One.key (lit ",") (lit "id") (lit "1}") (by decide) hb⟩

theorem free_check {p s : Bytes} (h : Rpc.split p s = none) : Free p s := by
  intro u v e
  have g := Rpc.split_complete p u v
  rw [← e, h] at g
  exact nomatch g

example : Opening (lit "<struct><member><name>a</name><value>") := by
  refine ⟨free_check ?_, free_check ?_, free_check ?_, free_check ?_, free_check ?_⟩ <;> decide

set_option maxRecDepth 8000 in
/-- A request of XML in which the numbers are in an array. -/
example : Sent .xml (lit "></value></data></array></value></param></params>") [.str (lit "GroupPause"), .int 5]
    (lit "<params><param><value><string>GroupPause</string></value></param><param><value><array><data><value><i4>5</i4></value></data></array></value></param></params>") := by
  have h2 := One.xml (.int 5) (lit "></value></param><param>") (lit "<array><data><value>") (lit "i4") (lit "5") [] (lit "</data></array></value></param></params>")
    (free_check (by decide)) ⟨free_check (by decide), free_check (by decide), free_check (by decide), free_check (by decide), free_check (by decide)⟩
    (.i4 5 (by decide) (by decide)) (by simp)
  have h1 := One.xml (.str (lit "GroupPause")) (lit "<params><param>") [] (lit "string") (lit "GroupPause") []
    (lit "</param><param><value><array><data><value><i4>5</i4></value></data></array></value></param></params>")
    (free_check (by decide)) ⟨free_check (by decide), free_check (by decide), free_check (by decide), free_check (by decide), free_check (by decide)⟩ (.str _ (by decide)) (by simp)
  exact .cons _ _ _ _ h1 (.cons _ _ _ _ h2 .nil)

example : Sent (.get false) [] [.str (lit "a b"), .bool true, .int 12] (lit "x=a b&y=1&z=12") :=
  .cons _ _ _ _ (.link false (.str (lit "a b")) (lit "x") (lit "a b") (lit "y=1&z=12") (by decide) (.str _ (by decide)) (by decide))
    (.cons _ _ _ _ (.link false (.bool true) (lit "y") (lit "1") (lit "z=12") (by decide) (.bool true) (by decide))
      (.cons _ _ _ _ (.last false (.int 12) (lit "z") (lit "12") (by decide) (.int 12 (by decide) (by decide))) .nil))

/-! ### What else is taken for a parameter -/

/-- C110: a text in JSON is only what stands between two quotes. -/
theorem str_quoted (s v : Bytes) (p : Option Bytes) (h : nextStr .json s = (some v, p)) : ∃ rest, JsonText.nextValue s = some (34 :: v ++ [34], rest) := by
  unfold nextStr at h
  dsimp only at h
  cases g : JsonText.nextValue s with
  | none => rw [g] at h; simp at h
  | some r =>
    obtain ⟨x, rest⟩ := r
    rw [g] at h
    dsimp only at h
    split at h
    · simp at h
    · next hc =>
      simp only [Bool.or_eq_true, not_or, bne_iff_ne, ne_eq, decide_eq_true_eq, Classical.not_not] at hc
      obtain ⟨⟨h2, h3⟩, h4⟩ := hc
      refine ⟨rest, ?_⟩
      have hv : (x.drop 1).take (x.length - 2) = v := by simpa using (congrArg Prod.fst h)
      cases x with
      | nil => simp at h2
      | cons a y =>
        have ha : a = 34 := by simpa using h3
        subst ha
        have hy : y ≠ [] := fun e => by rw [e] at h2; simp at h2
        have hl : y.getLast hy = 34 := by
          rw [List.getLast?_cons, List.getLast?_eq_some_getLast hy] at h4
          simpa using h4
        have hd := List.dropLast_concat_getLast hy
        rw [hl] at hd
        rw [← hv, List.drop_one, List.tail_cons, List.length_cons]
        have : y.take (y.length + 1 - 2) = y.dropLast := by rw [List.dropLast_eq_take]; rfl
        rw [this, List.cons_append, hd]

example : nextStr .json (lit "\"ab\",1") = (some (lit "ab"), some (lit "1")) ∧ (nextStr .json (lit "\" ,1")).1 = none := by decide +kernel

/-- C110: in a link for XML a flag is set exactly by a text which begins with 1. -/
theorem link_flag (s t rest : Bytes) (name : Bytes) (hn : 61 ∉ name) (ht : 38 ∉ t) (h : s = name ++ lit "=" ++ t ++ lit "&" ++ rest) :
    (nextBool (.get false) s).1 = some (t.head? == some 49) := by
  have e : nextStr (.get false) s = (some t, some rest) := by
    subst h
    unfold nextStr
    dsimp only
    rw [show name ++ lit "=" ++ t ++ lit "&" ++ rest = name ++ lit "=" ++ (t ++ 38 :: rest) by simp [lit]]
    rw [afterEq_eq name _ hn]
    dsimp only
    rw [takeWhile_ne ht, dropWhile_ne ht]
    rfl
  unfold nextBool
  dsimp only
  rw [e]
  rfl

example : (nextBool (.get false) (lit "x=yes&y=1")).1 = some false := by decide +kernel

/-- C110: printable characters sent in JSON arrive unchanged. -/
theorem json_text (v : Bytes) (h : ∀ c ∈ v, JsonText.Keeps c) : decode .json (JsonText.jsonEncode v) = some v ∧ decode (.get true) (JsonText.jsonEncode v) = some v :=
  ⟨JsonText.json_round_trip_partial v h, JsonText.json_round_trip_partial v h⟩

example : decode .json (JsonText.jsonEncode (lit "a \"b\" <c> & d\\e")) = some (lit "a \"b\" <c> & d\\e") := (json_text _ (fun c h => Or.inl ((by decide +kernel : ∀ c ∈ lit "a \"b\" <c> & d\\e", 32 ≤ c.toNat ∧ c.toNat < 128) c h))).1

/-- C110: with an unknown command nothing is done. -/
theorem edit_unknown (m : Mode) (s rest name : Bytes) (h : One m (.str name) s rest) (hn : ∀ a ∈ actions, ¬ OptStore.Same name (lit a)) : editQueue m s = some (.error 3) := by
  have g : actions.find? (fun a => Rpc.eqNoCase name (lit a)) = none := by
    rw [List.find?_eq_none]
    intro a ha e
    exact hn a ha ((OptStore.same_iff _ _).1 e)
  unfold editQueue
  simp only [ask_str h, bind, Option.bind]
  rw [g]

/-- The commands which a user can give. -/
def fileCommands : List String := ["MoveOffset", "MoveTop", "MoveBottom", "Pause", "Resume", "Delete", "PauseAllPars", "PauseExtraPars", "Reorder", "Split"]
def groupCommands : List String :=
  ["MoveOffset", "MoveTop", "MoveBottom", "MoveBefore", "MoveAfter", "Pause", "Resume", "Delete", "ParkDelete", "DupeDelete", "FinalDelete", "PauseAllPars", "PauseExtraPars",
   "SetPriority", "SetCategory", "ApplyCategory", "Merge", "SetParameter", "SetName", "SetDupeKey", "SetDupeScore", "SetDupeMode", "Sort", "SortFiles"]
def historyCommands : List String :=
  ["Delete", "FinalDelete", "Return", "Process", "Redownload", "RetryFailed", "SetParameter", "SetDupeKey", "SetDupeScore", "SetDupeMode", "SetDupeBackup", "MarkBad", "MarkGood",
   "MarkSuccess", "SetCategory", "SetName"]

/-- C110: all of them are known, and no others. -/
theorem commands_known (a : String) : a ∈ actions ↔ a ∈ fileCommands.map ("File" ++ ·) ++ groupCommands.map ("Group" ++ ·) ++ ["PostDelete"] ++ historyCommands.map ("History" ++ ·) := by
  have e : fileCommands.map ("File" ++ ·) ++ groupCommands.map ("Group" ++ ·) ++ ["PostDelete"] ++ historyCommands.map ("History" ++ ·) = actions := by decide +kernel
  rw [e]

example : editQueue .json (lit "\"GroupPauze\",\"\",5]") = some (.error 3) := by decide +kernel

end Verif.RpcParam
