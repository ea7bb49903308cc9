import Verif.DirectUnpack
import Verif.QueueScriptProps
import Verif.ScriptRunProps
import Verif.RarRenameNames
import Verif.UnpackFiles
/-
Names of archives and the output of unrar (C122).
-/
namespace Verif.DirectUnpack
open CStr

/-! ### Names -/

/-- The name is `<anything>.part<digits>.rar` in any case of letters. -/
def PartName (name digits : Bytes) : Prop :=
  ∃ a p e, name = a ++ p ++ digits ++ e ∧ p.map WildMask.lower = lit ".part" ∧ e.map WildMask.lower = lit ".rar" ∧ digits ≠ [] ∧
    ∀ b ∈ digits, isDigit b = true

theorem lower_dot (c : UInt8) : WildMask.lower c = 46 ↔ c = 46 := Files.lower_dot c

theorem partNo_iff (name d : Bytes) : partNo name = some d ↔ PartName name d := by
  unfold partNo
  constructor
  · intro h
    split at h
    · rename_i stem d1 hp
      split at h
      · rename_i hd
        cases h
        obtain ⟨a, c, t, e, h1, h2, h3, h4, h5, h6⟩ := (RarRename.partOf_iff _ _ _).mp hp
        have htl : t.length = 4 := by have := congrArg List.length h2; rw [List.length_map] at this; exact this
        have hc : c = 46 := by
          rw [h1, List.reverse_append, List.reverse_cons, List.append_assoc,
            List.getElem?_append_right (by rw [List.length_reverse, htl]; exact Nat.le_refl _), List.length_reverse, htl] at hd
          simpa using hd
        refine ⟨a, c :: t, e, ?_, ?_, h4, h5, h6⟩
        · rw [h3, h1]; simp only [List.append_assoc]
        · rw [List.map_cons, h2, hc]; rfl
      · cases h
    · cases h
  · rintro ⟨a, p, e, h1, h2, h3, h4, h5⟩
    match p, h2 with
    | c :: t, h2 =>
      rw [List.map_cons] at h2
      have hc := (lower_dot c).mp (List.cons.inj h2).1
      have ht : t.map WildMask.lower = lit "part" := (List.cons.inj h2).2
      have htl : t.length = 4 := by have := congrArg List.length ht; rw [List.length_map] at this; exact this
      have hp : RarRename.partOf name = some (a ++ c :: t, d) :=
        (RarRename.partOf_iff _ _ _).mpr ⟨a, c, t, e, rfl, ht, by rw [h1]; simp only [List.append_assoc], h3, h4, h5⟩
      rw [hp]
      dsimp only
      rw [if_pos]
      rw [List.reverse_append, List.reverse_cons, List.append_assoc,
        List.getElem?_append_right (by rw [List.length_reverse, htl]; exact Nat.le_refl _), List.length_reverse, htl, hc]
      rfl

/-- A file is taken as the first volume of an archive exactly if its name ends with `.rar` and, if it ends with `.part<digits>.rar`, the number
is one. -/
theorem isMain_iff (name : Bytes) : isMain name = true ↔
    Files.EndsWith name (lit ".rar") ∧ ∀ d, PartName name d → ParName.atoi d = 1 := by
  unfold isMain
  rw [Bool.and_eq_true, ← Files.endsWith_iff]
  apply and_congr Iff.rfl
  constructor
  · intro h d hd
    rw [(partNo_iff name d).mpr hd] at h
    exact eq_of_beq h
  · intro h
    split
    · rfl
    · rename_i d hd
      exact beq_iff_eq.mpr (h d ((partNo_iff name d).mp hd))

example : isMain (lit "Some.Show.S01.Part001.RAR") = true ∧ isMain (lit "a.part02.rar") = false ∧ isMain (lit "a.part11.rar") = false ∧
    isMain (lit "a.rar") = true ∧ isMain (lit "apart2.rar") = true ∧ isMain (lit "a.r00") = false := by decide +kernel

/-- Unpacking is started by a file whose name is that of a volume. -/
theorem isArchive_iff (name : Bytes) : isArchive name = true ↔
    Files.EndsWith name (lit ".rar") ∨
      ∃ a c d1 d2, name = a ++ [46, c, d1, d2] ∧ 114 ≤ WildMask.lower c ∧ WildMask.lower c ≤ 122 ∧ (48 ≤ d1 ∧ d1 ≤ 57) ∧ (48 ≤ d2 ∧ d2 ≤ 57) := by
  unfold isArchive
  rw [Bool.or_eq_true, ← Files.endsWith_iff]
  apply or_congr Iff.rfl
  unfold Files.isRarSeq
  constructor
  · intro h
    rw [← List.map_reverse] at h
    match hr : name.reverse with
    | x1 :: x2 :: x3 :: x4 :: r =>
      rw [hr] at h
      simp only [List.map_cons, Files.rarSeqRev, Bool.and_eq_true, decide_eq_true_eq, beq_iff_eq] at h
      refine ⟨r.reverse, x3, x2, x1, ?_, h.1.2.1, h.1.2.2, ?_, ?_⟩
      · have h4 : x4 = 46 := (lower_dot x4).mp h.2
        have := congrArg List.reverse hr
        rw [List.reverse_reverse] at this
        rw [this, h4]
        simp
      · have := h.1.1.2
        rw [Files.lower_digit] at this
        exact (Files.digit_iff _).mp this
      · have := h.1.1.1
        rw [Files.lower_digit] at this
        exact (Files.digit_iff _).mp this
    | [] => rw [hr] at h; cases h
    | [_] => rw [hr] at h; cases h
    | [_, _] => rw [hr] at h; cases h
    | [_, _, _] => rw [hr] at h; cases h
  · rintro ⟨a, c, d1, d2, rfl, h1, h2, h3, h4⟩
    rw [← List.map_reverse, List.reverse_append]
    show Files.rarSeqRev (WildMask.lower d2 :: WildMask.lower d1 :: WildMask.lower c :: WildMask.lower 46 :: _) = true
    simp only [Files.rarSeqRev, Files.lower_digit, Bool.and_eq_true, decide_eq_true_eq, beq_iff_eq]
    exact ⟨⟨⟨(Files.digit_iff _).mpr h4, (Files.digit_iff _).mpr h3⟩, h1, h2⟩, (lower_dot 46).mpr rfl⟩

/-! ### Lines -/

/-- `text` (without byte 0) is in the buffer. -/
def Holds (buf text : Bytes) : Prop := (∀ b ∈ text, b ≠ 0) ∧ buf.take (text.length + 1) = text ++ [0]

theorem cstr_append (t rest : Bytes) (h : ∀ b ∈ t, b ≠ 0) : cstr (t ++ 0 :: rest) = t := by
  induction t with
  | nil => rfl
  | cons b t ih =>
    rw [List.cons_append]
    unfold cstr
    rw [if_neg (h b List.mem_cons_self), ih (fun c hc => h c (List.mem_cons_of_mem _ hc))]

theorem holds_cstr {buf text : Bytes} (h : Holds buf text) : cstr buf = text := by
  have := List.take_append_drop (text.length + 1) buf
  rw [h.2, List.append_assoc] at this
  rw [← this]
  exact cstr_append _ _ h.1

/-- The line ends with this text. -/
def Ends (text : Bytes) (c : UInt8) : Prop :=
  c = 10 ∨ (36 < text.length ∧ c = 32 ∧ startsWith (lit "Insert disk with") text = true ∧ OptStore.contains (mark ++ [32]) text = true)

theorem lineEnds_iff {buf pre : Bytes} {c : UInt8} (h : Holds buf (pre ++ [c])) : lineEnds buf pre.length c = true ↔ Ends (pre ++ [c]) c := by
  unfold lineEnds Ends
  rw [holds_cstr h]
  simp only [Bool.or_eq_true, Bool.and_eq_true, beq_iff_eq, decide_eq_true_eq, List.length_append, List.length_singleton]
  constructor
  · rintro (h1 | ⟨⟨⟨h1, h2⟩, h3⟩, h4⟩)
    · exact Or.inl h1
    · exact Or.inr ⟨by omega, h2, h3, h4⟩
  · rintro (h1 | ⟨h1, h2, h3, h4⟩)
    · exact Or.inl h1
    · exact Or.inr ⟨⟨⟨by omega, h2⟩, h3⟩, h4⟩

theorem take_set (buf pre : Bytes) (c : UInt8) (h : buf.take pre.length = pre) (hl : pre.length + 2 ≤ buf.length) :
    ((buf.set pre.length c).set (pre.length + 1) 0).take (pre.length + 2) = pre ++ [c] ++ [0] := by
  apply List.ext_getElem?
  intro i
  rw [List.getElem?_take]
  by_cases h1 : i < pre.length
  · rw [if_pos (by omega), List.getElem?_set_ne (by omega), List.getElem?_set_ne (by omega), List.append_assoc,
      List.getElem?_append_left h1]
    conv => rhs; rw [← h]
    rw [List.getElem?_take, if_pos h1]
  · by_cases h2 : i = pre.length
    · subst h2
      rw [if_pos (by omega), List.getElem?_set_ne (by omega), List.getElem?_set_self (by omega)]
      simp
    · by_cases h3 : i = pre.length + 1
      · subst h3
        rw [if_pos (by omega), List.getElem?_set_self (by rw [List.length_set]; omega)]
        simp
      · rw [if_neg (by omega)]
        symm
        rw [List.getElem?_eq_none]
        simp
        omega

/-- Bytes are read as long as the line does not end. -/
theorem readLoop_line (rest : Bytes) (c : UInt8) (l : Bytes) : ∀ (left : Nat) (pre buf : Bytes), buf.take pre.length = pre →
    pre.length + left + 1 ≤ buf.length → l.length < left → (∀ b ∈ pre ++ l ++ [c], b ≠ 0 ∧ b ≠ 8) →
    (∀ q d r, l = q ++ d :: r → ¬ Ends (pre ++ q ++ [d]) d) → Ends (pre ++ l ++ [c]) c →
    ∃ buf', readLoop left pre.length false buf (l ++ c :: rest) = ((pre ++ l ++ [c]).length, buf', rest) ∧ Holds buf' (pre ++ l ++ [c]) ∧
      buf'.length = buf.length := by
  induction l with
  | nil =>
    intro left pre buf h1 h2 h3 h4 _ h6
    rw [List.append_nil] at h4 h6
    match left, h3 with
    | n + 1, _ =>
      have hc8 : (c == 8) = false := beq_eq_false_iff_ne.mpr (h4 c (List.mem_append_right _ (List.mem_singleton.mpr rfl))).2
      have hh : Holds ((buf.set pre.length c).set (pre.length + 1) 0) (pre ++ [c]) := by
        refine ⟨fun b hb => (h4 b hb).1, ?_⟩
        rw [List.length_append, List.length_singleton]
        exact take_set buf pre c h1 (by omega)
      refine ⟨(buf.set pre.length c).set (pre.length + 1) 0, ?_, ?_, ?_⟩
      · rw [List.nil_append, List.append_nil]
        unfold readLoop
        dsimp only
        rw [hc8, Bool.or_false]
        simp only [Bool.false_eq_true, if_false]
        rw [if_pos ((lineEnds_iff hh).mpr h6), List.length_append, List.length_singleton]
      · rw [List.append_nil]; exact hh
      · rw [List.length_set, List.length_set]
  | cons d l ih =>
    intro left pre buf h1 h2 h3 h4 h5 h6
    rw [List.length_cons] at h3
    match left, h3 with
    | n + 1, h3 =>
      have hd : d ≠ 0 ∧ d ≠ 8 := h4 d (by simp)
      have hc8 : (d == 8) = false := beq_eq_false_iff_ne.mpr hd.2
      have hh : Holds ((buf.set pre.length d).set (pre.length + 1) 0) (pre ++ [d]) := by
        refine ⟨fun b hb => (h4 b ?_).1, ?_⟩
        · rcases List.mem_append.mp hb with hb | hb
          · simp [hb]
          · rw [List.mem_singleton.mp hb]; simp
        · rw [List.length_append, List.length_singleton]
          exact take_set buf pre d h1 (by omega)
      have hne : lineEnds ((buf.set pre.length d).set (pre.length + 1) 0) pre.length d ≠ true := by
        intro hq
        have := (lineEnds_iff hh).mp hq
        have h7 := h5 [] d l rfl
        rw [List.append_nil] at h7
        exact h7 this
      have e1 : pre ++ d :: l ++ [c] = (pre ++ [d]) ++ l ++ [c] := by simp
      obtain ⟨buf', g1, g2, g3⟩ := ih n (pre ++ [d]) ((buf.set pre.length d).set (pre.length + 1) 0) (by
          have := hh.2
          have h8 := congrArg (List.take (pre ++ [d]).length) this
          rw [List.take_take, Nat.min_eq_left (by omega), List.take_left' rfl] at h8
          exact h8)
        (by rw [List.length_set, List.length_set, List.length_append, List.length_singleton]; omega) (by omega)
        (by intro b hb; rw [← e1] at hb; exact h4 b hb)
        (by
          intro q x r hq
          have h8 := h5 (d :: q) x r (by rw [hq]; rfl)
          have e2 : pre ++ d :: q ++ [x] = (pre ++ [d]) ++ q ++ [x] := by simp
          rw [e2] at h8
          exact h8)
        (by rw [← e1]; exact h6)
      refine ⟨buf', ?_, by rw [e1]; exact g2, by rw [g3, List.length_set, List.length_set]⟩
      rw [List.cons_append]
      unfold readLoop
      dsimp only
      rw [hc8, Bool.or_false]
      simp only [Bool.false_eq_true, if_false]
      rw [if_neg hne, e1, ← g1, List.length_append, List.length_singleton]

/-- The text which unrar prints when it needs a volume; there is no end of line. -/
def question (f : Bytes) : Bytes := lit "Insert disk with " ++ f ++ mark ++ [32]

/-- The end of the question is not already in it before. -/
def Clear (f : Bytes) : Prop := ∀ a b, lit "Insert disk with " ++ f ++ mark = a ++ mark ++ b → b = []

/-- In particular names without brackets are clear. -/
theorem clear_of_no_bracket {f : Bytes} (h : 91 ∉ f) : Clear f := by
  intro a b e
  have hm : mark = 32 :: 91 :: lit "C]ontinue, [Q]uit" := by decide
  by_cases ha : 91 ∈ a
  · exfalso
    have h1 := congrArg (List.takeWhile (· ≠ (91 : UInt8))) e
    have hp : ∀ x ∈ lit "Insert disk with " ++ f ++ [32], (decide (x ≠ (91 : UInt8))) = true := by
      intro x hx
      rw [decide_eq_true_eq]
      rintro rfl
      rcases List.mem_append.mp hx with hx | hx
      · rcases List.mem_append.mp hx with hx | hx
        · revert hx; decide
        · exact h hx
      · revert hx; decide
    have e1 : lit "Insert disk with " ++ f ++ mark = (lit "Insert disk with " ++ f ++ [32]) ++ 91 :: lit "C]ontinue, [Q]uit" := by
      rw [hm]; simp only [List.append_assoc, List.singleton_append]
    rw [e1, List.takeWhile_append_of_pos hp, List.takeWhile_cons_of_neg (by decide), List.append_nil] at h1
    have hlen := congrArg List.length e
    have hc := congrArg (List.count (91 : UInt8)) e
    have c0 : List.count (91 : UInt8) f = 0 := List.count_eq_zero.mpr h
    have c1 : List.count (91 : UInt8) mark = 2 := by decide
    have c2 : List.count (91 : UInt8) (lit "Insert disk with ") = 0 := by decide
    have c3 : 0 < List.count (91 : UInt8) a := List.count_pos_iff.mpr ha
    rw [List.count_append, List.count_append, List.count_append, List.count_append] at hc
    omega
  · have h1 := congrArg (List.takeWhile (· ≠ (91 : UInt8))) e
    have hp : ∀ x ∈ lit "Insert disk with " ++ f ++ [32], (decide (x ≠ (91 : UInt8))) = true := by
      intro x hx
      rw [decide_eq_true_eq]
      rintro rfl
      rcases List.mem_append.mp hx with hx | hx
      · rcases List.mem_append.mp hx with hx | hx
        · revert hx; decide
        · exact h hx
      · revert hx; decide
    have hp2 : ∀ x ∈ a ++ [32], (decide (x ≠ (91 : UInt8))) = true := by
      intro x hx
      rw [decide_eq_true_eq]
      rintro rfl
      rcases List.mem_append.mp hx with hx | hx
      · exact ha hx
      · revert hx; decide
    have e1 : lit "Insert disk with " ++ f ++ mark = (lit "Insert disk with " ++ f ++ [32]) ++ 91 :: lit "C]ontinue, [Q]uit" := by
      rw [hm]; simp only [List.append_assoc, List.singleton_append]
    have e2 : a ++ mark ++ b = (a ++ [32]) ++ 91 :: (lit "C]ontinue, [Q]uit" ++ b) := by
      rw [hm]; simp only [List.append_assoc, List.cons_append, List.nil_append]
    rw [e1, e2, List.takeWhile_append_of_pos hp, List.takeWhile_cons_of_neg (by decide), List.append_nil,
      List.takeWhile_append_of_pos hp2, List.takeWhile_cons_of_neg (by decide), List.append_nil] at h1
    have h2 := congrArg List.length h1
    have h3 := congrArg List.length e
    simp only [List.length_append] at h2 h3
    exact List.length_eq_zero_iff.mp (by omega)

/-- The question of unrar is read as a line, although there is no end of line, and nothing behind it is waited for. -/
theorem question_read (f rest buf : Bytes) (hf : ∀ b ∈ f, b ≠ 0 ∧ b ≠ 8 ∧ b ≠ 10) (hc : Clear f) (hl : f.length + 38 ≤ buf.length) :
    ∃ buf', readLine buf (question f ++ rest) = (true, buf', rest) ∧ cstr buf' = question f := by
  have hq : question f ++ rest = (lit "Insert disk with " ++ f ++ mark) ++ 32 :: rest := by
    unfold question; simp only [List.append_assoc, List.singleton_append]
  have hlen : (lit "Insert disk with " ++ f ++ mark).length = f.length + 36 := by
    rw [List.length_append, List.length_append]
    have : (lit "Insert disk with ").length = 17 := by decide
    have : mark.length = 19 := by decide
    omega
  have hstart : startsWith (lit "Insert disk with") (lit "Insert disk with " ++ f ++ mark ++ [32]) = true := by
    have : lit "Insert disk with " ++ f ++ mark ++ [32] = lit "Insert disk with" ++ (32 :: f ++ mark ++ [32]) := by
      have e : lit "Insert disk with " = lit "Insert disk with" ++ [32] := by decide
      rw [e]; simp only [List.append_assoc, List.cons_append, List.nil_append]
    rw [this]; exact startsWith_append _ _
  obtain ⟨buf', h1, h2, h3⟩ := readLoop_line rest 32 (lit "Insert disk with " ++ f ++ mark) (buf.length - 1) [] buf rfl
    (by simp only [List.length_nil]; omega) (by omega)
    (by
      intro b hb
      rw [List.nil_append] at hb
      rcases List.mem_append.mp hb with hb | hb
      · rcases List.mem_append.mp hb with hb | hb
        · rcases List.mem_append.mp hb with hb | hb
          · have : ∀ b ∈ lit "Insert disk with ", b ≠ 0 ∧ b ≠ 8 := by decide
            exact this b hb
          · exact ⟨(hf b hb).1, (hf b hb).2.1⟩
        · have : ∀ b ∈ mark, b ≠ 0 ∧ b ≠ 8 := by decide
          exact this b hb
      · rw [List.mem_singleton.mp hb]; decide)
    (by
      intro q d r e
      rw [List.nil_append]
      rintro (h | ⟨_, h4, _, h5⟩)
      · subst h
        have hm : (10 : UInt8) ∈ lit "Insert disk with " ++ f ++ mark := by rw [e]; simp
        rcases List.mem_append.mp hm with hm | hm
        · rcases List.mem_append.mp hm with hm | hm
          · revert hm; decide
          · exact (hf 10 hm).2.2 rfl
        · revert hm; decide
      · obtain ⟨x, y, h6⟩ := (QueueScript.after_isSome _ _).mp h5
        have e2 : lit "Insert disk with " ++ f ++ mark = x ++ mark ++ (32 :: y ++ r) := by
          have h7 : lit "Insert disk with " ++ f ++ mark = (q ++ [d]) ++ r := by rw [e]; simp
          rw [h7, h6]; simp only [List.append_assoc, List.cons_append, List.nil_append]
        have := hc _ _ e2
        cases this)
    (by
      rw [List.nil_append]
      refine Or.inr ⟨by rw [List.length_append, List.length_singleton]; omega, rfl, hstart, ?_⟩
      refine (QueueScript.after_isSome _ _).mpr ⟨lit "Insert disk with " ++ f, [], ?_⟩
      simp only [List.append_assoc, List.append_nil])
  rw [List.nil_append] at h1 h2
  rw [List.length_nil] at h1
  unfold readLine
  rw [hq, h1]
  dsimp only
  rw [holds_cstr h2, if_neg (by
    have : startsWith (lit "...") (lit "Insert disk with " ++ f ++ mark ++ [32]) = false := by
      have e : lit "Insert disk with " = 73 :: lit "nsert disk with " := by decide
      rw [e]; rfl
    rw [this]; exact Bool.false_ne_true)]
  refine ⟨_, by rw [decide_eq_true (by rw [List.length_append, List.length_singleton]; omega)], ?_⟩
  have hz : buf'.set (lit "Insert disk with " ++ f ++ mark ++ [32]).length 0 = buf' := by
    apply List.ext_getElem?
    intro i
    by_cases hi : i = (lit "Insert disk with " ++ f ++ mark ++ [32]).length
    · subst hi
      have := congrArg (fun z => z[(lit "Insert disk with " ++ f ++ mark ++ [32]).length]?) h2.2
      rw [List.getElem?_take, if_pos (Nat.lt_succ_self _), List.getElem?_append_right (Nat.le_refl _), Nat.sub_self] at this
      rw [this, List.getElem?_set_self (by rw [h3, List.length_append, List.length_singleton]; omega)]
      rfl
    · rw [List.getElem?_set_ne (fun h => hi h.symm)]
  rw [hz, holds_cstr h2]
  rfl

theorem find_first (p : Bytes) (hp : p ≠ []) : ∀ a, (∀ x y, a ++ p = x ++ p ++ y → y = []) → find p (a ++ p) = some a.length := by
  intro a
  induction a with
  | nil =>
    intro _
    rw [List.nil_append]
    match p, hp with
    | c :: t, _ =>
      unfold find
      rw [if_pos (by have := startsWith_append (c :: t) []; rw [List.append_nil] at this; exact this)]
      rfl
  | cons b a ih =>
    intro h
    rw [List.cons_append]
    unfold find
    have hs : startsWith p (b :: (a ++ p)) ≠ true := by
      intro hq
      unfold startsWith at hq
      rw [List.isPrefixOf_iff_prefix] at hq
      obtain ⟨y, hy⟩ := hq
      have := h [] y (by rw [List.nil_append, hy]; rfl)
      rw [this, List.append_nil] at hy
      have := congrArg List.length hy
      rw [List.length_cons, List.length_append] at this
      omega
    rw [if_neg hs, ih (fun x y e => h (b :: x) y (by rw [List.cons_append, e]; rfl))]
    rfl

/-- And the volume it asks for is exactly the one in the question. -/
theorem question_asks (f buf : Bytes) (hb : cstr buf = question f) (h0 : f ≠ []) (hc : Clear f) (hl : f.length ≤ 980) :
    (message buf).bind asksFor = some f := by
  have hm : mark = lit " [C]ontinue, [Q]ui" ++ [116] := by decide
  have ht : ScriptRun.trimEnd (cstr buf) = lit "Insert disk with " ++ f ++ mark := by
    rw [hb]
    unfold question
    have e1 : lit "Insert disk with " ++ f ++ mark ++ [32] = (lit "Insert disk with " ++ f ++ lit " [C]ontinue, [Q]ui") ++ [116] ++ [32] := by
      rw [hm]; simp only [List.append_assoc]
    rw [e1, ScriptRun.trimEnd_solid _ _ (by decide) _ (by decide), hm]
    simp only [List.append_assoc]
  have hI : lit "Insert disk with " ++ f ++ mark = 73 :: (lit "nsert disk with " ++ f ++ mark) := by
    have : lit "Insert disk with " = 73 :: lit "nsert disk with " := by decide
    rw [this]; rfl
  have hcut : ∀ p : Bytes, PpParam.cut (91 :: p) (lit "Insert disk with " ++ f ++ mark) = none := by
    intro p
    rw [hI]
    unfold PpParam.cut
    rw [if_neg]
    unfold startsWith
    rw [List.isPrefixOf_cons_cons]
    simp
  have hpo : ScriptRun.processOutput buf = some (.info, lit "Insert disk with " ++ f ++ mark) := by
    unfold ScriptRun.processOutput
    dsimp only
    rw [ht, if_neg (by rw [hI]; exact List.cons_ne_nil _ _)]
    have h1 := hcut (lit "INFO] ")
    have h2 := hcut (lit "WARNING] ")
    have h3 := hcut (lit "ERROR] ")
    have h4 := hcut (lit "DETAIL] ")
    have h5 := hcut (lit "DEBUG] ")
    have e1 : lit "[INFO] " = 91 :: lit "INFO] " := by decide
    have e2 : lit "[WARNING] " = 91 :: lit "WARNING] " := by decide
    have e3 : lit "[ERROR] " = 91 :: lit "ERROR] " := by decide
    have e4 : lit "[DETAIL] " = 91 :: lit "DETAIL] " := by decide
    have e5 : lit "[DEBUG] " = 91 :: lit "DEBUG] " := by decide
    rw [e1, e2, e3, e4, e5, h1, h2, h3, h4, h5]
  have hlen : (lit "Insert disk with " ++ f ++ mark).length = f.length + 36 := by
    rw [List.length_append, List.length_append]
    have : (lit "Insert disk with ").length = 17 := by decide
    have : mark.length = 19 := by decide
    omega
  have hmsg : message buf = some (lit "Unrar: Insert disk with " ++ f ++ mark) := by
    unfold message
    rw [hpo]
    unfold ScriptRun.printMessage
    dsimp only [Option.map_some]
    have e : lit "Unrar" ++ lit ": " = lit "Unrar: " := by decide
    have e2 : lit "Unrar: Insert disk with " = lit "Unrar: " ++ lit "Insert disk with " := by decide
    have e3 : (lit "Unrar: ").length = 7 := by decide
    rw [e, List.take_of_length_le (l := lit "Insert disk with " ++ f ++ mark) (by omega), List.take_of_length_le (by
      rw [List.length_append, e3]; omega), e2]
    simp only [List.append_assoc]
  rw [hmsg]
  show asksFor _ = _
  unfold asksFor
  have e4 : lit "Unrar: Insert disk with " = lit "Unrar: Insert disk with" ++ [32] := by decide
  have e5 : (lit "Unrar: Insert disk with ").length = 24 := by decide
  have hfind : find mark (lit "Unrar: Insert disk with " ++ f ++ mark) = some (24 + f.length) := by
    rw [find_first mark (by decide), List.length_append, e5]
    intro x y e
    have e2 : lit "Unrar: Insert disk with " = lit "Unrar: " ++ lit "Insert disk with " := by decide
    have hsplit : lit "Unrar: " ++ (lit "Insert disk with " ++ f ++ mark) = x ++ (mark ++ y) := by
      rw [← List.append_assoc x, ← e, e2]; simp only [List.append_assoc]
    rcases List.append_eq_append_iff.mp hsplit with ⟨z, h1, h2⟩ | ⟨z, h1, h2⟩
    · exact hc z y (by rw [h2, List.append_assoc])
    · exfalso
      have hm2 : mark = 32 :: 91 :: lit "C]ontinue, [Q]uit" := by decide
      match z with
      | [] =>
        rw [List.nil_append, hI, hm2] at h2
        exact absurd (List.cons.inj h2).1 (by decide)
      | [c] =>
        rw [hI, hm2] at h2
        have h3 := (List.cons.inj (List.cons.inj h2).2).1
        exact absurd h3 (by decide)
      | c :: d :: z =>
        rw [hm2] at h2
        have h3 : d = 91 := (List.cons.inj (List.cons.inj h2).2).1.symm
        have h4 : d ∈ lit "Unrar: " := by rw [h1]; simp
        rw [h3] at h4
        revert h4; decide
  rw [if_pos (by rw [e4]; simp only [List.append_assoc]; exact startsWith_append _ _), hfind]
  dsimp only
  have hfl : 0 < f.length := List.length_pos_iff.mpr h0
  rw [if_pos (by omega), Nat.add_sub_cancel_left, Nat.min_eq_right (by omega), List.append_assoc, List.drop_left' e5, List.take_left' rfl]

example : Clear (lit "Some.Show.part02.rar") := clear_of_no_bracket (by decide)

theorem cstr_set (buf : Bytes) : ∀ i, i < buf.length → cstr (buf.set i 0) = (cstr buf).take i := by
  induction buf with
  | nil => intro i h; cases h
  | cons b l ih =>
    intro i h
    match i with
    | 0 => rfl
    | i + 1 =>
      rw [List.set_cons_succ]
      unfold cstr
      split
      · rfl
      · rw [List.take_succ_cons, ih i (Nat.lt_of_succ_lt_succ h)]

theorem readLoop_back (rest buf : Bytes) (hb : startsWith (lit "Insert disk with") (cstr buf) = false) (l : Bytes) : ∀ (left i : Nat),
    10 ∉ l → l.length < left → readLoop left i true buf (l ++ 10 :: rest) = (i + l.length + 1, buf, rest) := by
  induction l with
  | nil =>
    intro left i _ hl
    match left, hl with
    | n + 1, _ =>
      rw [List.nil_append]
      unfold readLoop
      dsimp only
      rw [Bool.true_or]
      simp only [if_true]
      rw [if_pos (show lineEnds buf i 10 = true from rfl)]
      rfl
  | cons c l ih =>
    intro left i hn hl
    match left, hl with
    | n + 1, hl =>
      have hc : c ≠ 10 := fun q => hn (by rw [q]; exact List.mem_cons_self)
      rw [List.cons_append]
      unfold readLoop
      dsimp only
      rw [Bool.true_or]
      simp only [if_true]
      have : lineEnds buf i c = false := by
        unfold lineEnds
        rw [hb, Bool.and_false, Bool.false_and, Bool.or_false]
        exact beq_eq_false_iff_ne.mpr hc
      rw [if_neg (by rw [this]; exact Bool.false_ne_true), ih n (i + 1) (fun q => hn (List.mem_cons_of_mem _ q)) (by
        rw [List.length_cons] at hl; omega), List.length_cons]
      congr 1
      omega

/-- A line which begins with a backspace is not read into the buffer: the beginning of the line before, which is still in the buffer, is taken
for it once more. -/
theorem backspace_repeats (buf l rest : Bytes) (hn : 10 ∉ l) (hl : l.length + 3 ≤ buf.length)
    (hq : startsWith (lit "Insert disk with") (cstr buf) = false) (hd : startsWith (lit "...") (cstr buf) = false) :
    ∃ buf', readLine buf (8 :: l ++ 10 :: rest) = (true, buf', rest) ∧ cstr buf' = (cstr buf).take (l.length + 2) := by
  have h1 : readLoop (buf.length - 1) 0 false buf (8 :: l ++ 10 :: rest) = (l.length + 2, buf, rest) := by
    match hm : buf.length - 1 with
    | 0 => omega
    | n + 1 =>
      rw [List.cons_append]
      unfold readLoop
      dsimp only
      have : lineEnds buf 0 8 = false := by
        unfold lineEnds
        rw [hq, Bool.and_false, Bool.false_and, Bool.or_false]
        rfl
      have e8 : (false || (8 : UInt8) == 8) = true := by decide
      rw [e8]
      simp only [if_true]
      rw [if_neg (by rw [this]; exact Bool.false_ne_true), readLoop_back rest buf hq l n 1 hn (by omega)]
      congr 1
      omega
  unfold readLine
  rw [h1]
  dsimp only
  rw [if_neg (by rw [hd]; exact Bool.false_ne_true)]
  exact ⟨_, rfl, cstr_set buf _ (by omega)⟩

example : ∃ buf', readLine (lit "All OK" ++ List.replicate 100 0) (8 :: lit "......" ++ 10 :: []) = (true, buf', []) ∧ cstr buf' = lit "All OK" :=
  backspace_repeats _ (lit "......") [] (by decide) (by decide) (by decide) (by decide)

/-- A usual line is read up to its end. -/
theorem line_read (l rest buf : Bytes) (hf : ∀ b ∈ l, b ≠ 0 ∧ b ≠ 8 ∧ b ≠ 10) (hs : startsWith (lit "Insert disk with") l = false)
    (hd : startsWith (lit "...") (l ++ [10]) = false) (hl : l.length + 3 ≤ buf.length) :
    ∃ buf', readLine buf (l ++ 10 :: rest) = (true, buf', rest) ∧ cstr buf' = l ++ [10] := by
  obtain ⟨buf', h1, h2, h3⟩ := readLoop_line rest 10 l (buf.length - 1) [] buf rfl (by simp only [List.length_nil]; omega) (by omega)
    (by
      intro b hb
      rw [List.nil_append] at hb
      rcases List.mem_append.mp hb with hb | hb
      · exact ⟨(hf b hb).1, (hf b hb).2.1⟩
      · rw [List.mem_singleton.mp hb]; decide)
    (by
      intro q d r e
      rw [List.nil_append]
      rintro (h | ⟨_, _, h4, _⟩)
      · exact (hf d (by rw [e]; simp)).2.2 h
      · obtain ⟨z, hz⟩ : ∃ z, q ++ [d] = lit "Insert disk with" ++ z := by
          unfold startsWith at h4
          rw [List.isPrefixOf_iff_prefix] at h4
          obtain ⟨z, hz⟩ := h4
          exact ⟨z, hz.symm⟩
        have : l = lit "Insert disk with" ++ (z ++ r) := by
          rw [e, ← List.append_assoc, ← hz]; simp
        rw [this, startsWith_append] at hs
        cases hs)
    (Or.inl rfl)
  rw [List.nil_append] at h1 h2
  rw [List.length_nil] at h1
  unfold readLine
  rw [h1]
  dsimp only
  rw [holds_cstr h2, if_neg (by rw [hd]; exact Bool.false_ne_true)]
  refine ⟨_, by rw [decide_eq_true (by rw [List.length_append, List.length_singleton]; omega)], ?_⟩
  rw [cstr_set _ _ (by rw [h3, List.length_append, List.length_singleton]; omega), holds_cstr h2, List.take_of_length_le (Nat.le_refl _)]

/-! ### Messages -/

/-- The messages which tell that the archives are damaged or that the password is wrong. -/
inductive Damage : Bytes → Prop
  | checksum (r : Bytes) : Damage (lit "Unrar: Checksum error in the encrypted fil" ++ r)
  | crc (r : Bytes) : Damage (lit "Unrar: CRC failed in the encrypted file" ++ r)
  | password (r : Bytes) : Damage (lit "Unrar: The specified password is incorrect." ++ r)
  | packedCrc (a r : Bytes) : Damage (a ++ lit " : packed data CRC failed in volume" ++ r)
  | packedSum (a r : Bytes) : Damage (a ++ lit " : packed data checksum error in volume" ++ r)
  | fileCrc (a : Bytes) : a ≠ [] → Damage (a ++ lit " - CRC failed")
  | fileSum (a : Bytes) : a ≠ [] → Damage (a ++ lit " - checksum failed")
  | previous (r : Bytes) : Damage (lit "Unrar: WARNING: You need to start extraction from a previous volume" ++ r)

theorem starts_iff (p t : Bytes) : startsWith p t = true ↔ ∃ r, t = p ++ r := by
  unfold startsWith
  rw [List.isPrefixOf_iff_prefix]
  exact ⟨fun ⟨r, h⟩ => ⟨r, h.symm⟩, fun ⟨r, h⟩ => ⟨r, h.symm⟩⟩

theorem endsMore_iff (p t : Bytes) : endsMore p t = true ↔ ∃ a, a ≠ [] ∧ t = a ++ p := by
  unfold endsMore
  rw [Bool.and_eq_true, decide_eq_true_eq, List.isSuffixOf_iff_suffix]
  constructor
  · rintro ⟨h1, a, h2⟩
    refine ⟨a, ?_, h2.symm⟩
    rintro rfl
    rw [← h2, List.nil_append] at h1
    omega
  · rintro ⟨a, h1, rfl⟩
    refine ⟨?_, List.suffix_append _ _⟩
    have := List.length_pos_iff.mpr h1
    rw [List.length_append]; omega

/-- Unpacking is stopped by exactly these messages. -/
theorem isDamage_iff (t : Bytes) : isDamage t = true ↔ Damage t := by
  have ec : (lit "Unrar: Checksum error in the encrypted file").take 42 = lit "Unrar: Checksum error in the encrypted fil" := by decide
  unfold isDamage OptStore.contains
  rw [ec]
  simp only [Bool.or_eq_true, starts_iff, endsMore_iff, QueueScript.after_isSome]
  constructor
  · rintro (((((((⟨r, rfl⟩ | ⟨r, rfl⟩) | ⟨r, rfl⟩) | ⟨a, r, rfl⟩) | ⟨a, r, rfl⟩) | ⟨a, h, rfl⟩) | ⟨a, h, rfl⟩) | ⟨r, rfl⟩)
    · exact .checksum r
    · exact .crc r
    · exact .password r
    · exact .packedCrc a r
    · exact .packedSum a r
    · exact .fileCrc a h
    · exact .fileSum a h
    · exact .previous r
  · intro h
    cases h
    · exact Or.inl (Or.inl (Or.inl (Or.inl (Or.inl (Or.inl (Or.inl ⟨_, rfl⟩))))))
    · exact Or.inl (Or.inl (Or.inl (Or.inl (Or.inl (Or.inl (Or.inr ⟨_, rfl⟩))))))
    · exact Or.inl (Or.inl (Or.inl (Or.inl (Or.inl (Or.inr ⟨_, rfl⟩)))))
    · exact Or.inl (Or.inl (Or.inl (Or.inl (Or.inr ⟨_, _, rfl⟩))))
    · exact Or.inl (Or.inl (Or.inl (Or.inr ⟨_, _, rfl⟩)))
    · rename_i a ha
      exact Or.inl (Or.inl (Or.inr ⟨a, ha, rfl⟩))
    · rename_i a ha
      exact Or.inl (Or.inr ⟨a, ha, rfl⟩)
    · exact Or.inr ⟨_, rfl⟩

/-- What a message does to the job while the entry is in the queue. -/
theorem message_effect (s : S) (a t : Bytes) (hq : s.inQueue = true) (ha : asksFor t = none) :
    (addMessage s a t).pc = .reading a ∧
    ((addMessage s a t).stopped = true ↔ s.stopped = true ∨ Damage t) ∧
    ((addMessage s a t).allOk = true ↔ s.allOk = true ∨ ∃ r, t = lit "Unrar: All OK" ++ r) ∧
    (addMessage s a t).extracted = s.extracted ++ (match extractsFrom t with | some v => [v] | none => []) := by
  have hn : noteVolume t { s with pc := .reading a } =
      { s with pc := .reading a, extracted := s.extracted ++ (match extractsFrom t with | some v => [v] | none => []) } := by
    unfold noteVolume
    cases he : extractsFrom t with
    | none => dsimp only; rw [List.append_nil]
    | some v => dsimp only; rw [if_pos hq]
  unfold addMessage
  rw [ha]
  dsimp only
  rw [hn]
  unfold checkAllOk checkDamage stopFound
  dsimp only
  rw [← isDamage_iff, if_pos hq, ← starts_iff]
  cases hs : s.stopped <;> cases hd : isDamage t <;> refine ⟨rfl, ?_, ?_, rfl⟩ <;>
    simp [stop, isAllOk, Bool.or_eq_true]

theorem extractsFrom_iff (t v : Bytes) : extractsFrom t = some v ↔ t = lit "Unrar: Extracting from " ++ v := by
  unfold extractsFrom
  have e : (lit "Unrar: Extracting from ").length = 23 := by decide
  constructor
  · intro h
    split at h
    · rename_i hs
      obtain ⟨r, rfl⟩ := (starts_iff _ _).mp hs
      cases h
      rw [← e, List.drop_left]
    · cases h
  · rintro rfl
    rw [if_pos (startsWith_append _ _), ← e, List.drop_left]

end Verif.DirectUnpack
