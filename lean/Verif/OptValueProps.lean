import Verif.OptValue
import Verif.OptStoreProps
/-
What the value of an option means (C100).
-/
namespace Verif.OptValue
open CStr OptStore

/-! ### Options with a list of values -/

/-- `name` is one of the values which the option may have, and stands for the number `v`. -/
def Stands (t : Table) (name : Bytes) (v : Int) : Prop := ∃ i : Nat, t.names[i]? = some name ∧ t.vals[i]? = some v

/-- The name which the program itself writes for the number `v`: the first one of the table. -/
def Canonical (t : Table) (name : Bytes) (v : Int) : Prop :=
  ∃ i : Nat, t.names[i]? = some name ∧ t.vals[i]? = some v ∧ ∀ j < i, t.vals[j]? ≠ some v

/-- The table has a name and a number for each of its lines, and no name twice. -/
def Proper (t : Table) : Prop :=
  0 < t.names.length ∧ t.vals.length = t.names.length ∧ t.names.Pairwise (fun a b => ¬ Same a b)

/-- The count passed to the function is the number of lines. -/
def Counted (t : Table) : Prop := t.count = t.names.length

instance (t : Table) : Decidable (Proper t) := inferInstanceAs (Decidable (_ ∧ _))
instance (t : Table) : Decidable (Counted t) := inferInstanceAs (Decidable (_ = _))

theorem eqNoCase_false {a b : Bytes} (h : ¬ Same a b) : Rpc.eqNoCase a b = false := by
  rw [← Bool.not_eq_true]; exact fun g => h ((same_iff _ _).1 g)

theorem find_first {α : Type} (l : List (α × Int)) (v : Int) (h : ∃ p ∈ l, p.2 = v) :
    ∃ (i : Nat) (p : α × Int), l.find? (fun p => p.2 == v) = some p ∧ l[i]? = some p ∧ p.2 = v ∧
      ∀ j < i, ∀ q, l[j]? = some q → q.2 ≠ v := by
  induction l with
  | nil => obtain ⟨p, h, _⟩ := h; exact nomatch h
  | cons a l ih =>
    by_cases e : a.2 = v
    · exact ⟨0, a, by simp [e], rfl, e, fun j hj => absurd hj (by omega)⟩
    · have h' : ∃ p ∈ l, p.2 = v := by
        obtain ⟨p, hp, hv⟩ := h
        rcases List.mem_cons.mp hp with rfl | hp
        · exact absurd hv e
        · exact ⟨p, hp, hv⟩
      obtain ⟨i, p, h1, h2, h3, h4⟩ := ih h'
      refine ⟨i + 1, p, by simp [e, h1], by simpa using h2, h3, ?_⟩
      intro j hj q hq
      cases j with
      | zero => simp at hq; rw [← hq]; exact e
      | succ j => exact h4 j (by omega) q (by simpa using hq)

theorem normal_canonical (t : Table) (hp : Proper t) (v : Int) (text : Bytes) (h : ∃ i : Nat, t.vals[i]? = some v) :
    Canonical t (normal t v text) v := by
  obtain ⟨i, hi⟩ := h
  have hlt : i < t.vals.length := (List.getElem?_eq_some_iff.mp hi).1
  have hn : i < t.names.length := by rw [← hp.2.1]; exact hlt
  have hz : (t.names.zip t.vals)[i]? = some (t.names[i], v) := by
    rw [List.getElem?_zip_eq_some]; exact ⟨List.getElem?_eq_getElem hn, hi⟩
  obtain ⟨k, p, h1, h2, h3, h4⟩ := find_first (t.names.zip t.vals) v ⟨_, List.mem_of_getElem? hz, rfl⟩
  have h2' := (List.getElem?_zip_eq_some).mp h2
  have hx : normal t v text = p.1 := by
    unfold normal
    rw [h1]
    dsimp only
    by_cases e : p.1 = text
    · rw [if_pos e, e]
    · rw [if_neg e]
  rw [hx]
  refine ⟨k, h2'.1, by rw [h2'.2, h3], ?_⟩
  intro j hj hv
  have hjl : j < t.vals.length := (List.getElem?_eq_some_iff.mp hv).1
  have hjn : j < t.names.length := by rw [← hp.2.1]; exact hjl
  exact h4 j hj (t.names[j], v) (by rw [List.getElem?_zip_eq_some]; exact ⟨List.getElem?_eq_getElem hjn, hv⟩) rfl

theorem enumLoop_found (t : Table) (hp : Proper t) (value dflt : Bytes) (i : Nat) (n : Bytes) (v : Int)
    (hn : t.names[i]? = some n) (hv : t.vals[i]? = some v) (hs : Same value n) :
    ∀ (k j d : Nat), j ≤ i → i < j + k →
      enumLoop t value dflt k j d = some ⟨v, normal t v value, false⟩ := by
  intro k
  induction k with
  | zero => intro j d h1 h2; omega
  | succ k ih =>
    intro j d h1 h2
    have hi : i < t.names.length := (List.getElem?_eq_some_iff.mp hn).1
    have hj : j < t.names.length := by omega
    have hjv : j < t.vals.length := by rw [hp.2.1]; exact hj
    unfold enumLoop
    rw [List.getElem?_eq_getElem hj, List.getElem?_eq_getElem hjv]
    dsimp only
    by_cases e : j = i
    · subst e
      have g1 : t.names[j] = n := (List.getElem?_eq_some_iff.mp hn).2
      have g2 : t.vals[j] = v := (List.getElem?_eq_some_iff.mp hv).2
      rw [g1, g2, if_pos ((same_iff _ _).2 hs)]
    · have hne : ¬ Same value t.names[j] := by
        intro g
        have := List.pairwise_iff_getElem.mp hp.2.2 j i hj hi (by omega)
        rw [(List.getElem?_eq_some_iff.mp hn).2] at this
        exact this (g.symm.trans hs)
      rw [eqNoCase_false hne, if_neg Bool.false_ne_true]
      exact ih (j + 1) _ (by omega) (by omega)

/-- C100: a value of the list is taken whatever its case, without an error, and the option shows the program's name
for it afterwards. -/
theorem enum_known (t : Table) (hp : Proper t) (hc : t.names.length ≤ t.count) (value dflt name : Bytes) (v : Int)
    (hs : Stands t name v) (hv : Same value name) :
    ∃ w, parseEnum t value dflt = some ⟨v, w, false⟩ ∧ Canonical t w v := by
  obtain ⟨i, h1, h2⟩ := hs
  have hi : i < t.names.length := (List.getElem?_eq_some_iff.mp h1).1
  exact ⟨_, enumLoop_found t hp value dflt i name v h1 h2 hv t.count 0 0 (by omega) (by omega),
    normal_canonical t hp v value ⟨i, h2⟩⟩

theorem enumLoop_unknown (t : Table) (hp : Proper t) (value dflt : Bytes)
    (hv : ∀ n ∈ t.names, ¬ Same value n) :
    ∀ (k j d : Nat), j + k = t.names.length → d < t.names.length →
      (∀ i, i < j → (h : i < t.names.length) → Same dflt t.names[i] → d = i) →
      ∃ (e : Nat) (he : e < t.names.length) (he' : e < t.vals.length),
        enumLoop t value dflt k j d = some ⟨t.vals[e], t.names[e], true⟩ ∧
        (∀ i, (h : i < t.names.length) → Same dflt t.names[i] → e = i) ∧
        ((∀ i, j ≤ i → (h : i < t.names.length) → ¬ Same dflt t.names[i]) → e = d) := by
  intro k
  induction k with
  | zero =>
    intro j d h1 h2 h3
    have hd' : d < t.vals.length := by rw [hp.2.1]; exact h2
    refine ⟨d, h2, hd', ?_, fun i h g => h3 i (by omega) h g, fun _ => rfl⟩
    unfold enumLoop
    rw [List.getElem?_eq_getElem h2, List.getElem?_eq_getElem hd']
  | succ k ih =>
    intro j d h1 h2 h3
    have hj : j < t.names.length := by omega
    have hjv : j < t.vals.length := by rw [hp.2.1]; exact hj
    unfold enumLoop
    rw [List.getElem?_eq_getElem hj, List.getElem?_eq_getElem hjv]
    dsimp only
    rw [eqNoCase_false (hv _ (List.getElem_mem hj)), if_neg Bool.false_ne_true]
    by_cases g : Same dflt t.names[j]
    · rw [(same_iff _ _).2 g, if_pos rfl]
      obtain ⟨e, he, he', a1, a2, _⟩ := ih (j + 1) j (by omega) hj (by
        intro i hi h gi
        by_cases hij : i = j
        · exact hij.symm
        · have := List.pairwise_iff_getElem.mp hp.2.2 i j h hj (by omega)
          exact absurd (gi.symm.trans g) this)
      exact ⟨e, he, he', a1, a2, fun hn => absurd g (hn j (Nat.le_refl _) hj)⟩
    · rw [eqNoCase_false g, if_neg Bool.false_ne_true]
      obtain ⟨e, he, he', a1, a2, a3⟩ := ih (j + 1) d (by omega) h2 (by
        intro i hi h gi
        by_cases hij : i = j
        · subst hij; exact absurd gi g
        · exact h3 i (by omega) h gi)
      exact ⟨e, he, he', a1, a2, fun hn => a3 (fun i hi h => hn i (by omega) h)⟩

/-- C100: any other value is reported and replaced by the default. -/
theorem enum_unknown (t : Table) (hp : Proper t) (hc : Counted t) (value dflt name : Bytes) (v : Int)
    (hv : ∀ n ∈ t.names, ¬ Same value n) (hs : Stands t name v) (hd : Same dflt name) :
    parseEnum t value dflt = some ⟨v, name, true⟩ := by
  obtain ⟨i, h1, h2⟩ := hs
  obtain ⟨hi, g1⟩ := List.getElem?_eq_some_iff.mp h1
  obtain ⟨_, g2⟩ := List.getElem?_eq_some_iff.mp h2
  obtain ⟨e, he, he', a1, a2, _⟩ := enumLoop_unknown t hp value dflt hv t.count 0 0 (by rw [hc]; omega) hp.1
    (fun i h => absurd h (by omega))
  have : e = i := a2 i hi (by rw [g1]; exact hd)
  subst this
  unfold parseEnum
  rw [a1, g1, g2]

/-- C100: if the default is no value of the list either, the first one of the list is taken. -/
theorem enum_no_default (t : Table) (hp : Proper t) (hc : Counted t) (value dflt name : Bytes) (v : Int)
    (hv : ∀ n ∈ t.names, ¬ Same value n) (hd : ∀ n ∈ t.names, ¬ Same dflt n)
    (h1 : t.names[0]? = some name) (h2 : t.vals[0]? = some v) :
    parseEnum t value dflt = some ⟨v, name, true⟩ := by
  obtain ⟨_, g1⟩ := List.getElem?_eq_some_iff.mp h1
  obtain ⟨_, g2⟩ := List.getElem?_eq_some_iff.mp h2
  obtain ⟨e, he, he', a1, _, a3⟩ := enumLoop_unknown t hp value dflt hv t.count 0 0 (by rw [hc]; omega) hp.1
    (fun i h => absurd h (by omega))
  have : e = 0 := a3 (fun i _ h => hd _ (List.getElem_mem h))
  subst this
  unfold parseEnum
  rw [a1, g1, g2]

/-- The tables of the program, with the two exceptions below, are what the theorems ask for. -/
theorem tables_proper : ∀ t ∈ [boolTable, outputTable, parScanTable, strategyTable, healthTable, targetTable, writeLogTable,
    ipTable], Proper t ∧ Counted t := by
  decide +kernel

theorem enumLoop_overrun (t : Table) (value dflt : Bytes) (hv : ∀ n ∈ t.names, ¬ Same value n) :
    ∀ (k j d : Nat), j ≤ t.names.length → t.names.length < j + k → enumLoop t value dflt k j d = none := by
  intro k
  induction k with
  | zero => intro j d h1 h2; omega
  | succ k ih =>
    intro j d h1 h2
    unfold enumLoop
    by_cases hj : j < t.names.length
    · rw [List.getElem?_eq_getElem hj]
      cases hvj : t.vals[j]? with
      | none => rfl
      | some v =>
        dsimp only
        rw [eqNoCase_false (hv _ (List.getElem_mem hj)), if_neg Bool.false_ne_true]
        exact ih (j + 1) _ (by omega) (by omega)
    · rw [List.getElem?_eq_none (by omega)]

/-- C100, refuted for ParCheck and FileNaming: whatever the default, every value which is not in the list makes the
program read behind the end of the list. -/
theorem parCheck_overrun (value dflt : Bytes) :
    (∀ n ∈ parCheckTable.names, ¬ Same value n) → parseEnum parCheckTable value dflt = none :=
  fun h => enumLoop_overrun _ _ _ h _ _ _ (by decide) (by decide)

theorem fileNaming_overrun (value dflt : Bytes) :
    (∀ n ∈ namingTable.names, ¬ Same value n) → parseEnum namingTable value dflt = none :=
  fun h => enumLoop_overrun _ _ _ h _ _ _ (by decide) (by decide)

/-- Their lists themselves are right, so that `enum_known` holds for them. -/
theorem overrun_tables_proper : ∀ t ∈ [parCheckTable, namingTable], Proper t ∧ t.names.length ≤ t.count := by
  decide +kernel

/-- C100: what is accepted as yes or no, with any case. -/
theorem bool_words (value dflt : Bytes) (b : Bool) (l : List String)
    (hl : l = if b then ["yes", "true", "1", "on", "enable", "enabled"] else ["no", "false", "0", "off", "disable", "disabled"])
    (h : ∃ w ∈ l, Same value (lit w)) :
    parseEnum boolTable value dflt = some ⟨if b then 1 else 0, if b then lit "yes" else lit "no", false⟩ := by
  obtain ⟨w, hw, hs⟩ := h
  have hst : Stands boolTable (lit w) (if b then 1 else 0) := by
    subst hl
    have key : ∀ b : Bool, ∀ w ∈ (if b then ["yes", "true", "1", "on", "enable", "enabled"]
        else ["no", "false", "0", "off", "disable", "disabled"]), ∃ i : Fin 12, boolTable.names[i.val]? = some (lit w) ∧
          boolTable.vals[i.val]? = some (if b then 1 else 0) := by decide +kernel
    obtain ⟨i, hi⟩ := key b w hw
    exact ⟨i.val, hi⟩
  obtain ⟨x, h1, i, h2, h3, h4⟩ := enum_known boolTable (tables_proper _ (by simp)).1 (by decide) value dflt _ _ hst hs
  rw [h1]
  have : x = if b then lit "yes" else lit "no" := by
    cases b with
    | true =>
      have hi : i = 0 := Classical.byContradiction (fun hne => h4 0 (by omega) rfl)
      subst hi
      exact (Option.some.inj h2).symm
    | false =>
      have hi : i = 1 := by
        rcases Nat.lt_trichotomy i 1 with h | h | h
        · have : i = 0 := by omega
          subst this
          exact absurd h3 (by decide)
        · exact h
        · exact absurd rfl (h4 1 h)
      subst hi
      exact (Option.some.inj h2).symm
  rw [this]

theorem canonical_unique (t : Table) (a b : Bytes) (v : Int) (ha : Canonical t a v) (hb : Canonical t b v) : a = b := by
  obtain ⟨i, a1, a2, a3⟩ := ha
  obtain ⟨j, b1, b2, b3⟩ := hb
  have : i = j := by
    rcases Nat.lt_trichotomy i j with h | h | h
    · exact absurd a2 (b3 i h)
    · exact h
    · exact absurd b2 (a3 j h)
  subst this
  rw [a1] at b1
  exact Option.some.inj b1

/-- The documented values of the options with a list of values: for each the number (the place in the enumeration of
Options.h:32-100; the address family for the version of the protocol) and the words, the first of which is the program's own. -/
def documented : List (Table × List (Int × List String)) :=
  [(boolTable, [(1, ["yes", "true", "1", "on", "enable", "enabled"]), (0, ["no", "false", "0", "off", "disable", "disabled"])]),
   (outputTable, [(0, ["loggable", "logable", "log"]), (1, ["colored", "color"]), (2, ["ncurses", "curses"])]),
   (parCheckTable, [(0, ["auto"]), (1, ["always"]), (2, ["force"]), (3, ["manual"])]),
   (parScanTable, [(0, ["limited"]), (1, ["extended"]), (2, ["full"]), (3, ["dupe"])]),
   (strategyTable, [(0, ["sequential"]), (1, ["balanced"]), (2, ["aggressive"]), (3, ["rocket"])]),
   (namingTable, [(0, ["auto"]), (1, ["article"]), (2, ["nzb"])]),
   (healthTable, [(0, ["pause"]), (1, ["delete"]), (2, ["park"]), (3, ["none"])]),
   (targetTable, [(0, ["none"]), (1, ["screen"]), (2, ["log"]), (3, ["both"])]),
   (writeLogTable, [(0, ["none"]), (1, ["append"]), (2, ["reset"]), (3, ["rotate"])]),
   (ipTable, [(0, ["auto"]), (4, ["ipv4"]), (6, ["ipv6"])])]

/-- C100: each documented word of an option is taken, in any case, for the value it stands for, and shown as the first word
for this value afterwards. -/
theorem option_words (d : Table × List (Int × List String)) (hd : d ∈ documented) (e : Int × List String) (he : e ∈ d.2)
    (first w : String) (hf : e.2.head? = some first) (hw : w ∈ e.2) (value dflt : Bytes) (hs : Same value (lit w)) :
    parseEnum d.1 value dflt = some ⟨e.1, lit first, false⟩ := by
  have hp : ∀ d ∈ documented, Proper d.1 ∧ d.1.names.length ≤ d.1.count := by decide +kernel
  have key : ∀ d ∈ documented, ∀ e ∈ d.2, ∀ w ∈ e.2, ∃ i : Fin 12, d.1.names[i.val]? = some (lit w) ∧ d.1.vals[i.val]? = some e.1 := by
    decide +kernel
  have can : ∀ d ∈ documented, ∀ e ∈ d.2, ∃ i : Fin 12, d.1.names[i.val]? = e.2.head?.map lit ∧ d.1.vals[i.val]? = some e.1 ∧
      ∀ j < i.val, d.1.vals[j]? ≠ some e.1 := by
    decide +kernel
  obtain ⟨i, h1, h2⟩ := key d hd e he w hw
  obtain ⟨x, g1, g2⟩ := enum_known d.1 (hp d hd).1 (hp d hd).2 value dflt _ _ ⟨i.val, h1, h2⟩ hs
  obtain ⟨j, c1, c2, c3⟩ := can d hd e he
  rw [hf] at c1
  rw [g1, canonical_unique d.1 x (lit first) e.1 g2 ⟨j.val, c1, c2, c3⟩]

example : parseEnum healthTable (lit "PARK") (lit "none") = some ⟨2, lit "park", false⟩ :=
  option_words (healthTable, [(0, ["pause"]), (1, ["delete"]), (2, ["park"]), (3, ["none"])]) (by unfold documented; simp) (2, ["park"]) (by simp) "park" "park" rfl (by simp) _ _ (by decide +kernel)

/-- C100: the value of an option which has no default of the program is its own default when it is set for the first
time: such an option of a server, feed or category with an invalid value counts as yes, whichever option it is. -/
theorem invalid_bool_of_section (value : Bytes) (h : ∀ n ∈ boolTable.names, ¬ Same value n) :
    parseEnum boolTable (history value []).1 (history value []).2 = some ⟨1, lit "yes", true⟩ :=
  enum_no_default boolTable (tables_proper _ (by simp)).1 (tables_proper _ (by simp)).2 value value _ _ h h rfl rfl

/-- The values of an option: the last one counts, the first one is the default. -/
theorem history_spec (first : Bytes) (l : List Bytes) :
    history first l = ((first :: l).getLast (by simp), first) := by
  induction l generalizing first with
  | nil => rfl
  | cons v l ih =>
    have h := ih v
    rw [history, h, List.getLast_cons (a := first) (by simp)]

/-! ### Options with a number -/

/-- The number which the digits `ds` write in a base. -/
def valueIn (base : Nat) (ds : Bytes) : Nat := ds.foldl (fun a b => a * base + (b.toNat - 48)) 0

/-- The text writes the number `v`: blanks, a sign perhaps, and at least one digit. -/
def Writes (base : Nat) (s : Bytes) (v : Int) : Prop :=
  ∃ sp sg ds, s = sp ++ sg ++ ds ∧ (∀ b ∈ sp, isSpace b = true) ∧ ds ≠ [] ∧
    (∀ b ∈ ds, 48 ≤ b.toNat ∧ b.toNat < 48 + base) ∧
    ((sg = [] ∧ v = valueIn base ds) ∨ (sg = lit "+" ∧ v = valueIn base ds) ∨ (sg = lit "-" ∧ v = -(valueIn base ds : Int)))

theorem isDigitOf_iff (base : Nat) (b : UInt8) : isDigitOf base b = true ↔ 48 ≤ b.toNat ∧ b.toNat < 48 + base := by
  unfold isDigitOf; simp

theorem digitsOf_all (base : Nat) (ds : Bytes) (h : ∀ b ∈ ds, 48 ≤ b.toNat ∧ b.toNat < 48 + base) (acc : Nat) :
    digitsOf base acc ds = (ds.foldl (fun a b => a * base + (b.toNat - 48)) acc, []) := by
  induction ds generalizing acc with
  | nil => rfl
  | cons b ds ih =>
    unfold digitsOf
    rw [if_pos ((isDigitOf_iff _ _).2 (h b (by simp)))]
    exact ih (fun x hx => h x (List.mem_cons_of_mem _ hx)) _

theorem digitsOf_end (base : Nat) (ds : Bytes) (acc : Nat) (h : (digitsOf base acc ds).2 = []) :
    ∀ b ∈ ds, 48 ≤ b.toNat ∧ b.toNat < 48 + base := by
  induction ds generalizing acc with
  | nil => intro b hb; exact nomatch hb
  | cons b ds ih =>
    unfold digitsOf at h
    by_cases g : isDigitOf base b = true
    · rw [if_pos g] at h
      intro x hx
      rcases List.mem_cons.mp hx with rfl | hx
      · exact (isDigitOf_iff _ _).1 g
      · exact ih _ h x hx
    · rw [if_neg g] at h; exact nomatch h

theorem dropWhile_space (sp r : Bytes) (h : ∀ b ∈ sp, isSpace b = true) (hr : ∀ b, r.head? = some b → isSpace b = false) :
    (sp ++ r).dropWhile isSpace = r := by
  induction sp with
  | nil =>
    cases r with
    | nil => rfl
    | cons b r => rw [List.nil_append, List.dropWhile_cons, if_neg (by rw [hr b rfl]; exact Bool.false_ne_true)]
  | cons a sp ih =>
    rw [List.cons_append, List.dropWhile_cons, if_pos (h a (by simp))]
    exact ih (fun b hb => h b (List.mem_cons_of_mem _ hb))

theorem digit_facts (base : Nat) (hb : base ≤ 10) (b : UInt8) (h : 48 ≤ b.toNat ∧ b.toNat < 48 + base) :
    isSpace b = false ∧ b ≠ 45 ∧ b ≠ 43 := by
  have h2 : 48 ≤ b.toNat ∧ b.toNat < 58 := by omega
  refine ⟨?_, ?_, ?_⟩
  · have hne : b ≠ 32 := by intro e; subst e; exact absurd h2.1 (by decide)
    have hr : ¬ (9 ≤ b.toNat ∧ b.toNat ≤ 13) := by omega
    simp only [isSpace, Bool.or_eq_false_iff, beq_eq_false_iff_ne, Bool.and_eq_false_iff, decide_eq_false_iff_not]
    exact ⟨hne, by omega⟩
  · intro e; subst e; exact absurd h2.1 (by decide)
  · intro e; subst e; exact absurd h2.1 (by decide)

theorem strtol_writes (base : Nat) (hb : base ≤ 10) (s : Bytes) (v : Int) (h : Writes base s v) :
    strtol base s = (clamp64 v, []) := by
  obtain ⟨sp, sg, ds, hs, h1, h2, h3, h4⟩ := h
  cases ds with
  | nil => exact absurd rfl h2
  | cons d ds =>
    have hd := digit_facts base hb d (h3 d (by simp))
    have hda := digitsOf_all base (d :: ds) h3 0
    have hdig : isDigitOf base d = true := (isDigitOf_iff _ _).2 (h3 d (by simp))
    have core : ∀ neg : Bool, signOf ((sp ++ sg ++ d :: ds).dropWhile isSpace) = (neg, d :: ds) →
        strtol base (sp ++ sg ++ d :: ds) =
          (clamp64 (if neg then -(valueIn base (d :: ds) : Int) else valueIn base (d :: ds)), []) := by
      intro neg e
      unfold strtol
      dsimp only
      rw [e]
      dsimp only
      rw [if_pos hdig, hda]
      rfl
    subst hs
    rcases h4 with ⟨rfl, hv⟩ | ⟨rfl, hv⟩ | ⟨rfl, hv⟩
    · rw [core false, hv]; · rfl
      rw [List.append_assoc, dropWhile_space sp _ h1 (by
        intro b e; simp at e; rw [← e]; exact hd.1)]
      simp only [List.nil_append, signOf, if_neg hd.2.1, if_neg hd.2.2]
    · rw [core false, hv]; · rfl
      rw [List.append_assoc, dropWhile_space sp _ h1 (by
        intro b e
        have : b = 43 := by simpa [lit] using e.symm
        subst this; decide)]
      rfl
    · rw [core true, hv]; · rfl
      rw [List.append_assoc, dropWhile_space sp _ h1 (by
        intro b e
        have : b = 45 := by simpa [lit] using e.symm
        subst this; decide)]
      rfl

theorem strtol_end (base : Nat) (s : Bytes) (h : (strtol base s).2 = []) : s = [] ∨ ∃ v, Writes base s v := by
  unfold strtol at h
  dsimp only at h
  cases hp : (signOf (s.dropWhile isSpace)).2 with
  | nil => rw [hp] at h; exact Or.inl h
  | cons b l =>
    rw [hp] at h
    dsimp only at h
    by_cases g : isDigitOf base b = true
    · rw [if_pos g] at h
      right
      have hall := digitsOf_end base (b :: l) 0 h
      have hsp : ∀ x ∈ s.takeWhile isSpace, isSpace x = true := by
        have := List.all_takeWhile (p := isSpace) (l := s)
        intro x hx
        exact List.all_eq_true.mp this x hx
      have hs : s = s.takeWhile isSpace ++ s.dropWhile isSpace := (List.takeWhile_append_dropWhile).symm
      cases hq : s.dropWhile isSpace with
      | nil => rw [hq] at hp; exact nomatch hp
      | cons c r =>
        rw [hq] at hp hs
        unfold signOf at hp
        dsimp only at hp
        by_cases c1 : c = 45
        · rw [if_pos c1] at hp
          dsimp only at hp
          subst c1; subst hp
          exact ⟨_, s.takeWhile isSpace, lit "-", b :: l, by rw [List.append_assoc]; exact hs, hsp, by simp, hall,
            Or.inr (Or.inr ⟨rfl, rfl⟩)⟩
        · rw [if_neg c1] at hp
          by_cases c2 : c = 43
          · rw [if_pos c2] at hp
            dsimp only at hp
            subst c2; subst hp
            exact ⟨_, s.takeWhile isSpace, lit "+", b :: l, by rw [List.append_assoc]; exact hs, hsp, by simp, hall,
              Or.inr (Or.inl ⟨rfl, rfl⟩)⟩
          · rw [if_neg c2] at hp
            dsimp only at hp
            rw [hp] at hs
            exact ⟨_, s.takeWhile isSpace, [], b :: l, by rw [List.append_nil]; exact hs, hsp, by simp, hall,
              Or.inl ⟨rfl, rfl⟩⟩
    · rw [if_neg g] at h; exact Or.inl h

theorem clamp_int32 (v : Int) (h : -(2 ^ 31) ≤ v ∧ v < 2 ^ 31) : toInt32 (clamp64 v) = v := by
  have : clamp64 v = v := by unfold clamp64; omega
  rw [this]
  unfold toInt32
  rw [Int.bmod_def]
  omega

/-- C100: a number in the range of the program is taken as it is written, in the base of the option. -/
theorem int_number (base : Nat) (hb : base ≤ 10) (value dflt : Bytes) (v : Int) (h : Writes base value v)
    (hr : -(2 ^ 31) ≤ v ∧ v < 2 ^ 31) : parseInt base value dflt = ⟨v, value, false⟩ := by
  unfold parseInt
  dsimp only
  rw [strtol_writes base hb value v h, if_pos rfl, clamp_int32 v hr]

/-- C100: an empty value is 0, and no error. -/
theorem int_empty (base : Nat) (dflt : Bytes) : parseInt base [] dflt = ⟨0, [], false⟩ := rfl

/-- C100: everything else is reported and replaced by the default. -/
theorem int_invalid (base : Nat) (hb : base ≤ 10) (value dflt : Bytes) (hv : value ≠ []) (hn : ¬ ∃ v, Writes base value v) (d : Int)
    (hd : Writes base dflt d) (hr : -(2 ^ 31) ≤ d ∧ d < 2 ^ 31) : parseInt base value dflt = ⟨d, dflt, true⟩ := by
  unfold parseInt
  dsimp only
  rw [if_neg, strtol_writes base hb dflt d hd, clamp_int32 d hr]
  intro h
  rcases strtol_end base value h with h | h
  · exact hv h
  · exact hn h

/-- C100, refuted for large numbers: no error is reported and the number is taken modulo 2^32 (here for all numbers
below 2^63). -/
theorem int_wraps (base : Nat) (hb : base ≤ 10) (value dflt : Bytes) (n : Nat) (h : Writes base value n) (hn : n < 2 ^ 63) :
    ∃ r : Int, parseInt base value dflt = ⟨r, value, false⟩ ∧ (r - n) % 2 ^ 32 = 0 ∧ -(2 ^ 31) ≤ r ∧ r < 2 ^ 31 := by
  refine ⟨toInt32 (clamp64 n), ?_, ?_⟩
  · unfold parseInt
    dsimp only
    rw [strtol_writes base hb value n h, if_pos rfl]
  · have : clamp64 (n : Int) = n := by unfold clamp64; omega
    rw [this]
    unfold toInt32
    rw [Int.bmod_def]
    omega

theorem valueIn_append (base : Nat) (a : Bytes) (d : UInt8) : valueIn base (a ++ [d]) = valueIn base a * base + (d.toNat - 48) := by
  unfold valueIn; rw [List.foldl_append]; rfl

theorem valueIn_decAux (f : Nat) : ∀ n, n < f → valueIn 10 (decAux f n) = n := by
  induction f with
  | zero => intro n h; omega
  | succ f ih =>
    intro n h
    unfold decAux
    rw [valueIn_append, toNat_digit (by omega)]
    by_cases hn : n < 10
    · rw [if_pos hn]
      have : valueIn 10 [] = 0 := rfl
      rw [this]; omega
    · rw [if_neg hn, ih (n / 10) (by omega)]
      omega

/-- Every number is written by its decimal digits. -/
theorem writes_dec (n : Nat) : Writes 10 (dec n) n := by
  refine ⟨[], [], dec n, rfl, (fun _ h => nomatch h), ?_, ?_, Or.inl ⟨rfl, ?_⟩⟩
  · obtain ⟨d, l, h, _⟩ := decAux_ne_nil (n + 1) n (by omega)
    unfold dec; rw [h]; simp
  · intro b hb
    have := isDigit_dec n b hb
    simp only [isDigit, Bool.and_eq_true, decide_eq_true_eq] at this
    omega
  · unfold dec; rw [valueIn_decAux (n + 1) n (by omega)]

/-- C100: a number written by the program is read as the same number. -/
theorem int_dec (n : Nat) (h : n < 2 ^ 31) (dflt : Bytes) : parseInt 10 (dec n) dflt = ⟨n, dec n, false⟩ :=
  int_number 10 (by omega) _ _ _ (writes_dec n) (by omega)

/-- C100: the correction of the time is in hours if it is at most a day and in minutes otherwise; there is no overflow for
corrections up to 24855 days. -/
theorem timeCorrection_spec (i : Int) :
    (-24 ≤ i ∧ i ≤ 24 → timeCorrection i = some (3600 * i)) ∧
    (24 < i ∧ i ≤ 35791394 ∨ -35791394 ≤ i ∧ i < -24 → timeCorrection i = some (60 * i)) ∧
    (35791394 < i ∨ i < -35791394 → timeCorrection i = none) := by
  unfold timeCorrection
  dsimp only
  refine ⟨?_, ?_, ?_⟩ <;> intro h
  · rw [if_pos h, if_pos (by omega)]; congr 1; omega
  · have h1 : ¬ (-24 ≤ i ∧ i ≤ 24) := by omega
    rw [if_neg h1, if_pos (by omega)]; congr 1; omega
  · have h1 : ¬ (-24 ≤ i ∧ i ≤ 24) := by omega
    rw [if_neg h1, if_neg (by omega)]

/-- C100: the speed limit is in KB; a limit from 2 GB/s on overflows. -/
theorem rate_spec (i : Int) (h : 0 ≤ i) : (rateBytes i = some (1024 * i) ↔ i < 2097152) ∧ (rateBytes i = none ↔ 2097152 ≤ i) := by
  unfold rateBytes
  by_cases g : i < 2097152
  · rw [if_pos (by omega)]
    refine ⟨⟨fun _ => g, fun _ => by congr 1; omega⟩, ⟨(fun h => nomatch h), fun h => by omega⟩⟩
  · rw [if_neg (by omega)]
    exact ⟨⟨(fun h => nomatch h), fun h => by omega⟩, ⟨fun _ => by omega, fun _ => rfl⟩⟩

/-! ### Examples -/

example : parseEnum boolTable (lit "On") (lit "no") = some ⟨1, lit "yes", false⟩ := by decide +kernel
example : parseEnum writeLogTable (lit "sometimes") (lit "append") = some ⟨1, lit "append", true⟩ := by decide +kernel
example : parseEnum outputTable (lit "COLOR") (lit "curses") = some ⟨1, lit "colored", false⟩ := by decide +kernel
example : parseEnum parCheckTable (lit "never") (lit "auto") = none := by decide +kernel
example : parseEnum parCheckTable (lit "Force") (lit "auto") = some ⟨2, lit "force", false⟩ := by decide +kernel
example : parseEnum namingTable (lit "obfuscated") (lit "article") = none := by decide +kernel
example : parseEnum boolTable (lit "sure") (lit "sure") = some ⟨1, lit "yes", true⟩ := by decide +kernel
example : parseInt 10 (lit " -15") (lit "0") = ⟨-15, lit " -15", false⟩ := by decide +kernel
example : parseInt 8 (lit "022") (lit "1000") = ⟨18, lit "022", false⟩ := by decide +kernel
example : parseInt 8 (lit "029") (lit "1000") = ⟨512, lit "1000", true⟩ := by decide +kernel
example : parseInt 10 (lit "4294967297") (lit "0") = ⟨1, lit "4294967297", false⟩ := by decide +kernel
example : parseInt 10 (lit "60s") (lit "60") = ⟨60, lit "60", true⟩ := by decide +kernel
example : history (lit "a") [lit "b", lit "c"] = (lit "c", lit "a") := by decide +kernel
example : timeCorrection (-5) = some (-18000) ∧ timeCorrection 90 = some 5400 := by decide +kernel

end Verif.OptValue
