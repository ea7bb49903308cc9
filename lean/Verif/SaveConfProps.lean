import Verif.SaveConf
import Verif.TextProps
import Verif.OptLoadProps
import Verif.TokensProps
import Verif.WebFetchProps
/-! C107: what the settings page saves is what is read afterwards, and the rest of the file is kept. -/
namespace Verif.SaveConf
open CStr OptStore FeedFilter

/-! ### Files as lists of lines -/

/-- A text on one line. -/
def OnLine (l : Bytes) : Prop := (10 : UInt8) ∉ l ∧ (0 : UInt8) ∉ l

/-- A file: its lines, and what follows the last end of a line. -/
def file (ls : List Bytes) (last : Bytes) : Bytes := ls.flatMap (· ++ [10]) ++ last

/-- All the lines of such a file. -/
def allLines (ls : List Bytes) (last : Bytes) : List Bytes := ls ++ if last = [] then [] else [last]

theorem read_file (n : Nat) (hn : 2 ≤ n) (last : Bytes) (hl : (10 : UInt8) ∉ last) (hln : last.length < n) : ∀ (ls : List Bytes) (f : Nat),
    (∀ l ∈ ls, (10 : UInt8) ∉ l ∧ l.length + 1 < n) → ls.length + 1 < f →
    readLoop n f (file ls last) = some (ls.map (· ++ [10]) ++ if last = [] then [] else [last]) := by
  intro ls
  induction ls with
  | nil =>
    intro f _ hf
    obtain ⟨f, rfl⟩ : ∃ q, f = q + 2 := ⟨f - 2, by simp only [List.length_nil] at hf; omega⟩
    rw [show file [] last = last from rfl, readLoop, if_neg (by omega)]
    by_cases e : last = []
    · rw [if_pos e, if_pos e]; rfl
    · rw [if_neg e, if_neg e, fgets_all last (n - 1) hl, List.take_of_length_le (by omega), List.drop_of_length_le (by omega),
        readLoop, if_neg (by omega), if_pos rfl]
      rfl
  | cons l ls ih =>
    intro f h hf
    obtain ⟨f, rfl⟩ : ∃ q, f = q + 1 := ⟨f - 1, by omega⟩
    have e : file (l :: ls) last = l ++ 10 :: file ls last := by
      unfold file; simp only [List.flatMap_cons, List.append_assoc, List.cons_append, List.nil_append]
    obtain ⟨h1, h2⟩ := h l List.mem_cons_self
    rw [e, readLoop, if_neg (by omega), if_neg (by simp), Text.fgets_line l _ (n - 1) h1 (by omega),
      ih f (fun x hx => h x (List.mem_cons_of_mem _ hx)) (by simp only [List.length_cons] at hf; omega)]
    rfl

theorem file_length (ls : List Bytes) (last : Bytes) : ∀ l ∈ ls, l.length + ls.length + last.length ≤ (file ls last).length := by
  induction ls with
  | nil => intro _ h; exact nomatch h
  | cons x ls ih =>
    intro l hl
    have e : (file (x :: ls) last).length = x.length + 1 + (file ls last).length := by
      unfold file; simp only [List.flatMap_cons, List.length_append, List.length_cons, List.length_nil]; omega
    have k : ls.length + last.length ≤ (file ls last).length := by
      clear ih hl e
      unfold file
      rw [List.length_append]
      have : ls.length ≤ (ls.flatMap (· ++ [10])).length := by
        induction ls with
        | nil => exact Nat.le_refl _
        | cons y ys ih => simp only [List.flatMap_cons, List.length_append, List.length_cons, List.length_nil]; omega
      omega
    rcases List.mem_cons.1 hl with rfl | hl
    · rw [e, List.length_cons]; omega
    · have := ih l hl
      rw [e, List.length_cons]; omega

theorem count_le (ls : List Bytes) (last : Bytes) : ls.length + last.length ≤ (file ls last).length := by
  unfold file
  rw [List.length_append]
  have : ls.length ≤ (ls.flatMap (· ++ [10])).length := by
    induction ls with
    | nil => exact Nat.le_refl _
    | cons y ys ih => simp only [List.flatMap_cons, List.length_append, List.length_cons, List.length_nil]; omega
  omega

/-- The lines of a file which is not empty are read, with their ends. -/
theorem read_all (ls : List Bytes) (last : Bytes) (hls : ∀ l ∈ ls, OnLine l) (hl : OnLine last) (n f : Nat) (h2 : 2 ≤ n)
    (hn : (file ls last).length + 1 ≤ n) (hf : (file ls last).length + 2 ≤ f) :
    readLoop n f (file ls last) = some (ls.map (· ++ [10]) ++ if last = [] then [] else [last]) := by
  have hc := count_le ls last
  refine read_file n h2 last hl.1 (by omega) ls f (fun l h => ⟨(hls l h).1, ?_⟩) (by omega)
  have := file_length ls last l h
  have : 0 < ls.length := List.length_pos_of_mem h
  omega

/-! ### Single lines -/

theorem trimRight_blank (l : Bytes) (b : UInt8) (hb : isBlank b = true) : trimRight (l ++ [b]) = trimRight l := by
  unfold trimRight
  rw [List.reverse_append, List.reverse_singleton, List.singleton_append, List.dropWhile_cons_of_pos hb]

theorem mem_trimRight (l : Bytes) (b : UInt8) (hb : isBlank b = false) (h : b ∈ l) : b ∈ trimRight l := by
  unfold trimRight
  rw [List.mem_reverse]
  have h' : b ∈ l.reverse := List.mem_reverse.2 h
  generalize l.reverse = m at h'
  induction m with
  | nil => exact nomatch h'
  | cons c m ih =>
    rw [List.dropWhile_cons]
    split
    · next hc =>
      rcases List.mem_cons.1 h' with rfl | h'
      · rw [hb] at hc; exact absurd hc Bool.false_ne_true
      · exact ih h'
    · exact h'

theorem trimRight_prefix (l : Bytes) : trimRight l <+: l := by
  unfold trimRight
  have := List.dropWhile_suffix (l := l.reverse) isBlank
  rw [← List.reverse_prefix, List.reverse_reverse] at this
  exact this

theorem head_prefix {a b : Bytes} (h : a <+: b) (hne : a ≠ []) : a.head? = b.head? := by
  obtain ⟨t, rfl⟩ := h
  cases a with
  | nil => exact absurd rfl hne
  | cons x a => rfl

theorem cstr_line (l : Bytes) (h : OnLine l) : cstr l = l := cstr_of_no_nul (fun _ hb e => h.2 (e ▸ hb))

theorem cstr_eol (l : Bytes) (h : OnLine l) : cstr (l ++ [10]) = l ++ [10] :=
  cstr_of_no_nul (fun _ hb e => by
    rcases List.mem_append.1 hb with hb | hb
    · exact h.2 (e ▸ hb)
    · rw [List.mem_singleton.1 hb] at e; exact absurd e (by decide))

theorem loadLine_eol (l : Bytes) (h : OnLine l) : loadLine (l ++ [10]) = loadLine l := by
  unfold loadLine
  rw [cstr_eol l h, cstr_line l h, trimRight_blank l 10 (by decide)]

theorem isOpt_eol (l : Bytes) : isOpt (l ++ [10]) = isOpt l := by
  unfold isOpt
  cases l with
  | nil => decide
  | cons c l =>
    have : ((c :: l) ++ [10]).contains 61 = (c :: l).contains 61 := by
      rw [Bool.eq_iff_iff, List.contains_iff_mem, List.contains_iff_mem, List.mem_append, List.mem_singleton]
      exact ⟨fun h => h.elim id (fun h => absurd h (by decide)), Or.inl⟩
    rw [this]; rfl

/-- The two ways to recognise an option agree. -/
theorem loadLine_opt (l : Bytes) (h : OnLine l) : loadLine l = if isOpt l = true then splitOption (trimRight l) else none := by
  unfold loadLine
  rw [cstr_line l h]
  dsimp only
  have hpre := trimRight_prefix l
  by_cases ho : isOpt l = true
  · rw [if_pos ho]
    unfold isOpt at ho
    rw [Bool.and_eq_true, List.contains_iff_mem] at ho
    have hm := mem_trimRight l 61 (by decide) ho.1
    have hne : trimRight l ≠ [] := fun e => by rw [e] at hm; exact nomatch hm
    rw [if_neg]
    rintro (e | e | e)
    · exact hne e
    · rw [head_prefix hpre hne] at e; rw [e] at ho; exact absurd ho.2 (by decide)
    · rw [List.all_eq_true] at e
      exact absurd (e 61 hm) (by decide)
  · rw [if_neg ho]
    by_cases hs : trimRight l = [] ∨ (trimRight l).head? = some 35 ∨ (trimRight l).all (· == 32) = true
    · rw [if_pos hs]
    · rw [if_neg hs]
      have hne : trimRight l ≠ [] := fun e => hs (Or.inl e)
      have hh : l.head? ≠ some 35 := fun e => hs (Or.inr (Or.inl (by rw [head_prefix hpre hne, e])))
      have hno : (61 : UInt8) ∉ trimRight l := by
        intro hm
        apply ho
        unfold isOpt
        rw [Bool.and_eq_true, List.contains_iff_mem]
        exact ⟨hpre.subset hm, by simpa using hh⟩
      unfold splitOption
      rw [splitAt_none hno]

/-- An option which can be written on a line and is read back unchanged: the name is not empty, has no `=` and does not begin a
comment; there are no ends of lines and no blanks at the end of the value; neither name nor value is one of an earlier version. -/
structure EntryOk (e : Bytes × Bytes) : Prop where
  name : NameOk e.1
  line1 : OnLine e.1
  line2 : OnLine e.2
  last : ∀ b, e.2.getLast? = some b → isBlank b = false
  modern : Modern e.1 e.2

/-- The line of an option without its end. -/
def text (e : Bytes × Bytes) : Bytes := e.1 ++ 61 :: e.2

theorem optLine_text (e : Bytes × Bytes) : optLine e = text e ++ [10] := rfl

theorem text_line (e : Bytes × Bytes) (h : EntryOk e) : OnLine (text e) := by
  unfold text
  refine ⟨fun hm => ?_, fun hm => ?_⟩ <;> rcases List.mem_append.1 hm with hm | hm
  · exact h.line1.1 hm
  · rcases List.mem_cons.1 hm with e | hm
    · exact absurd e (by decide)
    · exact h.line2.1 hm
  · exact h.line1.2 hm
  · rcases List.mem_cons.1 hm with e | hm
    · exact absurd e (by decide)
    · exact h.line2.2 hm

theorem isOpt_text (e : Bytes × Bytes) (h : EntryOk e) : isOpt (text e) = true := by
  unfold isOpt text
  rw [Bool.and_eq_true, List.contains_iff_mem]
  refine ⟨by simp, ?_⟩
  have := h.name
  cases hn : e.1 with
  | nil => exact absurd hn this.1
  | cons c n =>
    have h3 := this.2.2
    rw [hn] at h3
    simpa using h3

theorem loadLine_text (e : Bytes × Bytes) (h : EntryOk e) : loadLine (text e) = some e := by
  rw [loadLine_opt _ (text_line e h), if_pos (isOpt_text e h)]
  have ht : trimRight (text e) = text e := by
    have : ∀ b, (text e).getLast? = some b → isBlank b = false := by
      intro b hb
      unfold text at hb
      cases hv : e.2 with
      | nil =>
        rw [hv] at hb
        rw [List.getLast?_append] at hb
        have hb : some (61 : UInt8) = some b := hb
        obtain rfl := Option.some.inj hb
        decide
      | cons c v =>
        rw [hv, List.getLast?_append, List.getLast?_cons_cons] at hb
        have hl := h.last
        rw [hv] at hl
        apply hl
        cases hq : (c :: v).getLast? with
        | none => exact absurd (List.getLast?_eq_none_iff.1 hq) (by simp)
        | some q => rw [hq] at hb; exact hb
    unfold trimRight
    cases hr : (text e).reverse with
    | nil => rw [List.reverse_eq_nil_iff] at hr; rw [hr]; rfl
    | cons c r =>
      have hl : (text e).getLast? = some c := by
        rw [← List.head?_reverse, hr]; rfl
      rw [List.dropWhile_cons_of_neg (by rw [this c hl]; exact Bool.false_ne_true), ← hr, List.reverse_reverse]
  rw [ht]
  exact split_line h.name h.modern

/-! ### What is saved -/

/-- No two entries have the same name. -/
def Unique (es : Entries) : Prop := es.Pairwise (fun a b => ¬ Same a.1 b.1)

/-- The entry of that name. -/
def entry (es : Entries) (n : Bytes) : Option (Bytes × Bytes) := es.find? (fun e => Rpc.eqNoCase e.1 n)

/-- The options of a file, as the lines say. -/
def options (ls : List Bytes) : Entries := ls.filterMap loadLine

theorem entry_place (es : Entries) (n : Bytes) : (place es n).bind (fun i => es[i]?) = entry es n := by
  unfold place entry
  induction es with
  | nil => rfl
  | cons e es ih =>
    rw [List.findIdx?_cons, List.find?_cons]
    cases h : Rpc.eqNoCase e.1 n with
    | true => rfl
    | false =>
      rw [← ih]
      dsimp only
      rw [if_neg Bool.false_ne_true]
      cases es.findIdx? (fun e => Rpc.eqNoCase e.1 n) with
      | none => rfl
      | some i => rfl

theorem entry_some {es : Entries} {n : Bytes} {e : Bytes × Bytes} (h : entry es n = some e) : e ∈ es ∧ Same e.1 n :=
  ⟨List.mem_of_find?_eq_some h, (same_iff _ _).1 (by simpa using List.find?_some h)⟩

theorem entry_unique {es : Entries} (hu : Unique es) {e : Bytes × Bytes} (he : e ∈ es) {n : Bytes} (hs : Same e.1 n) : entry es n = some e := by
  unfold entry
  induction es with
  | nil => exact nomatch he
  | cons x es ih =>
    rw [List.find?_cons]
    have hu' := List.pairwise_cons.1 hu
    rcases List.mem_cons.1 he with rfl | he
    · rw [(same_iff _ _).2 hs]
    · have : Rpc.eqNoCase x.1 n = false := eqNoCase_false (fun h => hu'.1 e he (h.trans hs.symm))
      rw [this]
      exact ih hu'.2 he

theorem place_unique {es : Entries} (hu : Unique es) (n : Bytes) (i : Nat) (e : Bytes × Bytes) (hi : es[i]? = some e) :
    place es n = some i ↔ Same e.1 n := by
  unfold place
  induction es generalizing i with
  | nil => simp at hi
  | cons x es ih =>
    have hu' := List.pairwise_cons.1 hu
    rw [List.findIdx?_cons]
    cases i with
    | zero =>
      have hx : x = e := by simpa using hi
      subst hx
      cases h : Rpc.eqNoCase x.1 n with
      | true => simp [(same_iff _ _).1 h]
      | false =>
        have : ¬ Same x.1 n := fun g => by rw [(same_iff _ _).2 g] at h; exact nomatch h
        simp [this]
    | succ i =>
      have hi' : es[i]? = some e := by simpa using hi
      cases h : Rpc.eqNoCase x.1 n with
      | true =>
        have hn : ¬ Same e.1 n := fun g => hu'.1 e (List.mem_of_getElem? hi') (((same_iff _ _).1 h).trans g.symm)
        simp [hn]
      | false =>
        rw [if_neg Bool.false_ne_true, ← ih hu'.2 i hi']
        cases es.findIdx? (fun e => Rpc.eqNoCase e.1 n) with
        | none => simp
        | some j => simp

theorem setBy_eq (es : Entries) (l : Bytes) (h : OnLine l) : setBy es l = (loadLine l).bind (fun p => place es p.1) := by
  rw [loadLine_opt l h]
  unfold setBy
  split
  · rfl
  · rfl

theorem setBy_eol (es : Entries) (l : Bytes) : setBy es (l ++ [10]) = setBy es l := by
  unfold setBy
  rw [isOpt_eol, trimRight_blank l 10 (by decide)]

/-- What becomes of a line. -/
def newLine (es : Entries) (l : Bytes) : Option Bytes :=
  if isOpt l = true then ((loadLine l).bind (fun o => entry es o.1)).map text else some l

theorem saveLine_new (es : Entries) (l : Bytes) (h : OnLine l) : saveLine es (l ++ [10]) = ((newLine es l).map (· ++ [10])).getD [] := by
  unfold saveLine newLine
  rw [isOpt_eol]
  by_cases ho : isOpt l = true
  · rw [if_pos ho, if_pos ho, setBy_eol es l, setBy_eq es l h]
    cases loadLine l with
    | none => rfl
    | some o =>
      show (match (place es o.1).bind (fun i => es[i]?) with | none => [] | some e => optLine e) = _
      rw [entry_place]
      show _ = (((entry es o.1).map text).map (· ++ [10])).getD []
      cases entry es o.1 <;> rfl
  · rw [if_neg ho, if_neg ho]; rfl

theorem saveLine_last (es : Entries) (l : Bytes) (ho : isOpt l = true) : saveLine es l = saveLine es (l ++ [10]) := by
  unfold saveLine setBy
  rw [isOpt_eol, ho, trimRight_blank l 10 (by decide), if_pos rfl, if_pos rfl, if_pos rfl]

/-- The entries which no line names. -/
def unnamed (es : Entries) (old : Entries) : Entries := es.filter (fun e => !old.any (fun o => Rpc.eqNoCase e.1 o.1))

theorem fresh_eq (es : Entries) (hu : Unique es) (ls : List Bytes) (hl : ∀ l ∈ ls, OnLine l) : fresh es ls = unnamed es (options ls) := by
  unfold fresh unnamed
  have hc : es.zipIdx.filter (fun p => !ls.any (fun l => setBy es l == some p.2)) =
      es.zipIdx.filter ((fun e => !(options ls).any (fun o => Rpc.eqNoCase e.1 o.1)) ∘ Prod.fst) := by
    apply List.filter_congr
    rintro ⟨e, i⟩ hp
    have hi : es[i]? = some e := List.mk_mem_zipIdx_iff_getElem?.1 hp
    show (!_) = (!_)
    congr 1
    rw [Bool.eq_iff_iff, List.any_eq_true, List.any_eq_true]
    constructor
    · rintro ⟨l, hm, h⟩
      have h : setBy es l = some i := by simpa using h
      rw [setBy_eq es l (hl l hm)] at h
      cases ho : loadLine l with
      | none => rw [ho] at h; exact nomatch h
      | some o =>
        rw [ho] at h
        exact ⟨o, List.mem_filterMap.2 ⟨l, hm, ho⟩, (same_iff _ _).2 ((place_unique hu o.1 i e hi).1 h)⟩
    · rintro ⟨o, hm, h⟩
      obtain ⟨l, hlm, ho⟩ := List.mem_filterMap.1 hm
      refine ⟨l, hlm, ?_⟩
      rw [setBy_eq es l (hl l hlm), ho]
      have := (place_unique hu o.1 i e hi).2 ((same_iff _ _).1 h)
      show (place es o.1 == some i) = true
      rw [this]; simp
  rw [hc, ← List.filter_map, List.zipIdx_map_fst]

/-- The lines of the file after saving. -/
def newLines (es : Entries) (ls : List Bytes) : List Bytes := ls.filterMap (newLine es) ++ (unnamed es (options ls)).map text

theorem flatMap_new (es : Entries) (ls : List Bytes) (h : ∀ l ∈ ls, OnLine l) :
    (ls.map (· ++ [10])).flatMap (saveLine es) = (ls.filterMap (newLine es)).flatMap (· ++ [10]) := by
  induction ls with
  | nil => rfl
  | cons l ls ih =>
    rw [List.map_cons, List.flatMap_cons, ih (fun x hx => h x (List.mem_cons_of_mem _ hx)), saveLine_new es l (h l List.mem_cons_self),
      List.filterMap_cons]
    cases newLine es l <;> rfl

theorem map_cstr (ls : List Bytes) (h : ∀ l ∈ ls, OnLine l) : (ls.map (· ++ [10])).map cstr = ls.map (· ++ [10]) := by
  rw [List.map_map]
  exact List.map_congr_left (fun l hl => cstr_eol l (h l hl))

/-- C107: the file after saving. Every line which is not an option is kept as it is, every option which is given gets its new value at
its place, the other options are removed, and the options which were not there follow at the end. The file must not end in the middle of a line which is not an
option. -/
theorem save_spec (es : Entries) (hu : Unique es) (ls : List Bytes) (last : Bytes) (hls : ∀ l ∈ ls, OnLine l) (hl : OnLine last)
    (hlast : last = [] ∨ isOpt last = true) (f : Nat) (hf : (file ls last).length + 2 ≤ f) :
    save f es (file ls last) = some (file (newLines es (allLines ls last)) []) := by
  unfold save
  rw [read_all ls last hls hl _ f (by omega) (by omega) hf]
  show some (saved es _) = _
  have hset : ∀ (l : Bytes), OnLine l → setBy es (l ++ [10]) = setBy es l := fun l _ => setBy_eol es l
  have hfresh : ∀ (xs : List Bytes), (∀ l ∈ xs, OnLine l) → fresh es (xs.map (· ++ [10])) = fresh es xs := by
    intro xs hx
    unfold fresh
    congr 1
    apply List.filter_congr
    intro p _
    congr 1
    rw [List.any_map]
    rw [Bool.eq_iff_iff, List.any_eq_true, List.any_eq_true]
    constructor
    · rintro ⟨l, hm, h⟩; exact ⟨l, hm, by rw [← hset l (hx l hm)]; exact h⟩
    · rintro ⟨l, hm, h⟩; exact ⟨l, hm, by show (setBy es (l ++ [10]) == _) = true; rw [hset l (hx l hm)]; exact h⟩
  have hall : ∀ l ∈ allLines ls last, OnLine l := by
    intro l hm
    unfold allLines at hm
    rcases List.mem_append.1 hm with hm | hm
    · exact hls l hm
    · split at hm
      · exact nomatch hm
      · rw [List.mem_singleton.1 hm]; exact hl
  -- the same as if the last line had an end
  have key : saved es ((ls.map (· ++ [10]) ++ if last = [] then [] else [last]).map cstr) = saved es ((allLines ls last).map (· ++ [10])) := by
    unfold allLines
    by_cases e : last = []
    · rw [if_pos e, List.append_nil, List.append_nil, map_cstr ls hls]
    · rw [if_neg e, List.map_append, List.map_append, map_cstr ls hls]
      have ho : isOpt last = true := hlast.resolve_left e
      show saved es (_ ++ [cstr last]) = saved es (_ ++ [last ++ [10]])
      rw [cstr_line last hl]
      unfold saved
      rw [List.flatMap_append, List.flatMap_append, List.flatMap_singleton, List.flatMap_singleton, saveLine_last es last ho]
      congr 2
      unfold fresh
      congr 1
      apply List.filter_congr
      intro p _
      congr 1
      rw [List.any_append, List.any_append]
      congr 1
      show (setBy es last == some p.2 || false) = (setBy es (last ++ [10]) == some p.2 || false)
      rw [hset last hl]
  rw [key]
  unfold saved
  rw [flatMap_new es _ hall, hfresh _ hall, fresh_eq es hu _ hall]
  unfold newLines file
  rw [List.flatMap_append, List.append_nil, List.flatMap_map]
  rfl

theorem newLines_online (es : Entries) (he : ∀ e ∈ es, EntryOk e) (ls : List Bytes) (hl : ∀ l ∈ ls, OnLine l) : ∀ l ∈ newLines es ls, OnLine l := by
  intro l hm
  unfold newLines at hm
  rcases List.mem_append.1 hm with hm | hm
  · obtain ⟨x, hx, e⟩ := List.mem_filterMap.1 hm
    unfold newLine at e
    split at e
    · cases ho : loadLine x with
      | none => rw [ho] at e; exact nomatch e
      | some o =>
        rw [ho] at e
        have e : (entry es o.1).map text = some l := e
        obtain ⟨y, hy, rfl⟩ := Option.map_eq_some_iff.1 e
        exact text_line y (he y (entry_some hy).1)
    · obtain rfl := Option.some.inj e
      exact hl x hx
  · obtain ⟨y, hy, rfl⟩ := List.mem_map.1 hm
    exact text_line y (he y (List.mem_filter.1 hy).1)

theorem filterMap_same {α β : Type} (f g : α → Option β) : ∀ xs : List α, (∀ x ∈ xs, f x = g x) → xs.filterMap f = xs.filterMap g
  | [], _ => rfl
  | x :: xs, h => by
    rw [List.filterMap_cons, List.filterMap_cons, h x List.mem_cons_self, filterMap_same f g xs (fun y hy => h y (List.mem_cons_of_mem _ hy))]

theorem options_new (es : Entries) (he : ∀ e ∈ es, EntryOk e) (ls : List Bytes) (hl : ∀ l ∈ ls, OnLine l) :
    options (newLines es ls) = (options ls).filterMap (fun o => entry es o.1) ++ unnamed es (options ls) := by
  unfold newLines
  show List.filterMap loadLine _ = _
  rw [List.filterMap_append]
  congr 1
  · unfold options
    rw [List.filterMap_filterMap, List.filterMap_filterMap]
    apply filterMap_same
    intro l hm
    have hlo := loadLine_opt l (hl l hm)
    unfold newLine
    by_cases ho : isOpt l = true
    · rw [if_pos ho]
      cases hol : loadLine l with
      | none => rfl
      | some o =>
        show ((entry es o.1).map text).bind loadLine = entry es o.1
        cases hen : entry es o.1 with
        | none => rfl
        | some e => exact loadLine_text e (he e (entry_some hen).1)
    · rw [if_neg ho] at hlo ⊢
      rw [hlo]
      exact hlo
  · generalize hu : unnamed es (options ls) = us
    have hsub : ∀ e ∈ us, EntryOk e := fun e h => he e (by rw [← hu] at h; exact (List.mem_filter.1 h).1)
    clear hu
    induction us with
    | nil => rfl
    | cons u us ih =>
      rw [List.map_cons, List.filterMap_cons, loadLine_text u (hsub u List.mem_cons_self)]
      exact congrArg _ (ih (fun e h => hsub e (List.mem_cons_of_mem _ h)))

/-- No scripts are given by the options of earlier versions. -/
def NoOld (es : Entries) : Prop :=
  ∀ e ∈ es, Same e.1 (lit "ScanScript") ∨ Same e.1 (lit "QueueScript") ∨ Same e.1 (lit "FeedScript") → e.2 = []

theorem mergeOld_none (es : Entries) (opt : Bytes) (c : Bool) (h : ∀ e ∈ es, Same e.1 opt → e.2 = []) : mergeOld es opt c = es := by
  unfold mergeOld
  rw [entry_place]
  cases he : entry es opt with
  | none => rfl
  | some e =>
    dsimp only
    rw [if_pos (h e (entry_some he).1 (entry_some he).2)]

theorem convertAll_none (es : Entries) (h : NoOld es) : convertAll es = es := by
  unfold convertAll
  rw [mergeOld_none es _ _ (fun e he hs => h e he (Or.inl hs)), mergeOld_none es _ _ (fun e he hs => h e he (Or.inr (Or.inl hs))),
    mergeOld_none es _ _ (fun e he hs => h e he (Or.inr (Or.inr hs)))]

theorem load_file (ls : List Bytes) (hl : ∀ l ∈ ls, OnLine l) (hne : ls ≠ []) (f : Nat) (hf : (file ls []).length + 2 ≤ f) :
    load f (file ls []) = some (convertAll (options ls)) := by
  unfold load
  have hpos : 1 ≤ (file ls []).length := by
    have := count_le ls []
    have := List.length_pos_iff.mpr hne
    omega
  rw [read_all ls [] hl ⟨by simp, by simp⟩ _ f (by omega) (by omega) hf]
  show some (convertAll _) = _
  rw [if_pos rfl, List.append_nil]
  congr 2
  unfold options
  rw [List.filterMap_map]
  exact filterMap_same _ _ _ (fun l h => loadLine_eol l (hl l h))

/-- C107: what is saved is what is read afterwards: first the options which the file had, in its order, then the others. -/
theorem saved_options (es : Entries) (hu : Unique es) (he : ∀ e ∈ es, EntryOk e) (ho : NoOld es) (ls : List Bytes) (last : Bytes)
    (hls : ∀ l ∈ ls, OnLine l) (hl : OnLine last) (hlast : last = [] ∨ isOpt last = true) (hne : es ≠ []) (f g : Nat)
    (hf : (file ls last).length + 2 ≤ f) (hg : (file (newLines es (allLines ls last)) []).length + 2 ≤ g) :
    (save f es (file ls last)).bind (load g) = some ((options (allLines ls last)).filterMap (fun o => entry es o.1) ++
      unnamed es (options (allLines ls last))) := by
  have hall : ∀ l ∈ allLines ls last, OnLine l := by
    intro l hm
    unfold allLines at hm
    rcases List.mem_append.1 hm with hm | hm
    · exact hls l hm
    · split at hm
      · exact nomatch hm
      · rw [List.mem_singleton.1 hm]; exact hl
  rw [save_spec es hu ls last hls hl hlast f hf]
  show load g _ = _
  have hno : newLines es (allLines ls last) ≠ [] := by
    intro e
    have h := options_new es he _ hall
    rw [e] at h
    obtain ⟨x, hx⟩ := List.exists_mem_of_ne_nil es hne
    have hm : x ∈ (options (allLines ls last)).filterMap (fun o => entry es o.1) ++ unnamed es (options (allLines ls last)) := by
      rw [List.mem_append]
      by_cases hq : (options (allLines ls last)).any (fun o => Rpc.eqNoCase x.1 o.1) = true
      · obtain ⟨o, ho, hs⟩ := List.any_eq_true.1 hq
        exact Or.inl (List.mem_filterMap.2 ⟨o, ho, entry_unique hu hx ((same_iff _ _).1 hs)⟩)
      · exact Or.inr (List.mem_filter.2 ⟨hx, by simpa using hq⟩)
    rw [← h] at hm
    exact nomatch hm
  rw [load_file _ (newLines_online es he _ hall) hno g hg, options_new es he _ hall]
  congr 1
  apply convertAll_none
  intro e hm
  rcases List.mem_append.1 hm with hm | hm
  · obtain ⟨o, _, hq⟩ := List.mem_filterMap.1 hm
    exact ho e (entry_some hq).1
  · exact ho e (List.mem_filter.1 hm).1

/-- C107: after saving exactly the given options are in the file, with exactly the given values. -/
theorem saved_exactly (es : Entries) (hu : Unique es) (he : ∀ e ∈ es, EntryOk e) (ho : NoOld es) (ls : List Bytes) (last : Bytes)
    (hls : ∀ l ∈ ls, OnLine l) (hl : OnLine last) (hlast : last = [] ∨ isOpt last = true) (hne : es ≠ []) (f g : Nat)
    (hf : (file ls last).length + 2 ≤ f) (hg : (file (newLines es (allLines ls last)) []).length + 2 ≤ g) :
    ∃ r, (save f es (file ls last)).bind (load g) = some r ∧ ∀ e, e ∈ r ↔ e ∈ es := by
  refine ⟨_, saved_options es hu he ho ls last hls hl hlast hne f g hf hg, fun e => ?_⟩
  rw [List.mem_append]
  constructor
  · rintro (h | h)
    · obtain ⟨o, _, hq⟩ := List.mem_filterMap.1 h
      exact (entry_some hq).1
    · exact (List.mem_filter.1 h).1
  · intro hx
    by_cases hq : (options (allLines ls last)).any (fun o => Rpc.eqNoCase e.1 o.1) = true
    · obtain ⟨o, ho, hs⟩ := List.any_eq_true.1 hq
      exact Or.inl (List.mem_filterMap.2 ⟨o, ho, entry_unique hu hx ((same_iff _ _).1 hs)⟩)
    · exact Or.inr (List.mem_filter.2 ⟨hx, by simpa using hq⟩)

/-- C107: the lines which are not options are the same before and after, in the same order. -/
theorem comments_kept (es : Entries) (he : ∀ e ∈ es, EntryOk e) (ls : List Bytes) :
    (newLines es ls).filter (fun l => !isOpt l) = ls.filter (fun l => !isOpt l) := by
  unfold newLines
  rw [List.filter_append]
  have h2 : ((unnamed es (options ls)).map text).filter (fun l => !isOpt l) = [] := by
    rw [List.filter_eq_nil_iff]
    intro l hl
    obtain ⟨e, hm, rfl⟩ := List.mem_map.1 hl
    rw [isOpt_text e (he e (List.mem_filter.1 hm).1)]
    exact Bool.false_ne_true
  rw [h2, List.append_nil]
  induction ls with
  | nil => rfl
  | cons l ls ih =>
    have ih := ih (by
      rw [List.filter_eq_nil_iff]
      intro l hl
      obtain ⟨e, hm, rfl⟩ := List.mem_map.1 hl
      rw [isOpt_text e (he e (List.mem_filter.1 hm).1)]
      exact Bool.false_ne_true)
    rw [List.filterMap_cons]
    unfold newLine
    by_cases ho : isOpt l = true
    · rw [if_pos ho, List.filter_cons_of_neg (by rw [ho]; exact Bool.false_ne_true), ← ih]
      cases hq : ((loadLine l).bind (fun o => entry es o.1)).map text with
      | none => rfl
      | some t =>
        dsimp only
        rw [List.filter_cons_of_neg]
        · rfl
        · obtain ⟨e, hb, rfl⟩ := Option.map_eq_some_iff.1 hq
          obtain ⟨o, _, hq⟩ := Option.bind_eq_some_iff.1 hb
          rw [isOpt_text e (he e (entry_some hq).1)]
          exact Bool.false_ne_true
    · rw [if_neg ho]
      dsimp only
      rw [List.filter_cons_of_pos (by simpa using ho), List.filter_cons_of_pos (by simpa using ho)]
      exact congrArg _ ih

/-- C107: saving the same once more changes nothing. -/
theorem save_again (es : Entries) (hu : Unique es) (he : ∀ e ∈ es, EntryOk e) (ls : List Bytes) (hls : ∀ l ∈ ls, OnLine l) :
    newLines es (newLines es ls) = newLines es ls := by
  have hin : ∀ e ∈ es, e ∈ options (newLines es ls) := by
    intro e hx
    rw [options_new es he ls hls, List.mem_append]
    by_cases hq : (options ls).any (fun o => Rpc.eqNoCase e.1 o.1) = true
    · obtain ⟨o, ho, hs⟩ := List.any_eq_true.1 hq
      exact Or.inl (List.mem_filterMap.2 ⟨o, ho, entry_unique hu hx ((same_iff _ _).1 hs)⟩)
    · exact Or.inr (List.mem_filter.2 ⟨hx, by simpa using hq⟩)
  have hnone : unnamed es (options (newLines es ls)) = [] := by
    unfold unnamed
    rw [List.filter_eq_nil_iff]
    intro e hx
    have : (options (newLines es ls)).any (fun o => Rpc.eqNoCase e.1 o.1) = true :=
      List.any_eq_true.2 ⟨e, hin e hx, (same_iff _ _).2 rfl⟩
    rw [this]
    exact Bool.false_ne_true
  have hkeep : ∀ l ∈ newLines es ls, newLine es l = some l := by
    intro l hm
    have htext : ∀ e ∈ es, newLine es (text e) = some (text e) := by
      intro e hx
      unfold newLine
      rw [if_pos (isOpt_text e (he e hx)), loadLine_text e (he e hx)]
      show (entry es e.1).map text = _
      rw [entry_unique hu hx rfl]
      rfl
    unfold newLines at hm
    rcases List.mem_append.1 hm with hm | hm
    · obtain ⟨x, hx, e⟩ := List.mem_filterMap.1 hm
      by_cases ho : isOpt x = true
      · unfold newLine at e
        rw [if_pos ho] at e
        obtain ⟨y, hb, rfl⟩ := Option.map_eq_some_iff.1 e
        obtain ⟨o, _, hq⟩ := Option.bind_eq_some_iff.1 hb
        exact htext y (entry_some hq).1
      · unfold newLine at e
        rw [if_neg ho] at e
        obtain rfl := Option.some.inj e
        unfold newLine
        rw [if_neg ho]
    · obtain ⟨y, hy, rfl⟩ := List.mem_map.1 hm
      exact htext y (List.mem_filter.1 hy).1
  have hfm : ∀ xs : List Bytes, (∀ l ∈ xs, newLine es l = some l) → xs.filterMap (newLine es) = xs := by
    intro xs hx
    induction xs with
    | nil => rfl
    | cons x xs ih =>
      rw [List.filterMap_cons, hx x List.mem_cons_self]
      exact congrArg _ (ih (fun l hl => hx l (List.mem_cons_of_mem _ hl)))
  rw [newLines, hnone, hfm _ hkeep, List.map_nil, List.append_nil]

/-! ### Where the property fails -/

/-- C107, the other way round: if the file ends with a comment without the end of the line, a new option is written into the
comment, and is lost. -/
theorem swallowed (e : Bytes × Bytes) (he : EntryOk e) (c : Bytes) (hc : OnLine c) (f g : Nat) (hf : c.length + 3 ≤ f)
    (hg : c.length + (text e).length + 5 ≤ g) :
    (save f [e] (35 :: c)).bind (load g) = some [] := by
  have hl : OnLine (35 :: c) := ⟨fun h => (List.mem_cons.1 h).elim (by decide) hc.1, fun h => (List.mem_cons.1 h).elim (by decide) hc.2⟩
  have ho : ∀ x, isOpt (35 :: x) = false := fun x => by unfold isOpt; simp
  have h1 : save f [e] (35 :: c) = some (35 :: c ++ text e ++ [10]) := by
    unfold save
    have := read_all [] (35 :: c) (fun _ h => nomatch h) hl ((35 :: c).length + 2) f (by simp) (by simp [file]) (by simp [file]; omega)
    rw [show file [] (35 :: c) = 35 :: c from rfl] at this
    rw [this]
    show some (saved [e] _) = _
    rw [if_neg (by simp)]
    simp only [List.map_nil, List.nil_append, List.map_cons, cstr_line _ hl]
    unfold saved
    have hs : setBy [e] (35 :: c) = none := by unfold setBy; rw [ho]; rfl
    have hf : fresh [e] [35 :: c] = [e] := by
      unfold fresh
      simp [List.zipIdx, hs]
    rw [hf]
    unfold saveLine
    simp only [List.flatMap_cons, List.flatMap_nil, ho, Bool.false_eq_true, if_false, List.append_nil]
    rw [optLine_text, List.append_assoc]
  rw [h1]
  show load g _ = _
  have h2 : OnLine (35 :: c ++ text e) := by
    have ht := text_line e he
    exact ⟨fun h => (List.mem_append.1 h).elim hl.1 ht.1, fun h => (List.mem_append.1 h).elim hl.2 ht.2⟩
  have h3 := load_file [35 :: c ++ text e] (fun l h => by rw [List.mem_singleton.1 h]; exact h2) (by simp) g (by simp [file]; omega)
  rw [show file [35 :: c ++ text e] [] = 35 :: c ++ text e ++ [10] by simp [file]] at h3
  rw [h3]
  have h4 : options [35 :: c ++ text e] = [] := by
    unfold options
    rw [List.filterMap_cons, loadLine_opt _ h2, List.cons_append, ho, if_neg Bool.false_ne_true]
    rfl
  rw [h4]
  rfl

/-- C107, the other way round: an end of a line in a value ends the option; what follows is saved as another one. -/
theorem injected (a b : Bytes × Bytes) (f : Nat) : save f [(a.1, a.2 ++ 10 :: text b)] [] = save f [a, b] [] := by
  unfold save
  cases h : readLoop 2 f [] with
  | none => rfl
  | some ls =>
    have : ls = [] := by
      cases f with
      | zero => exact nomatch h
      | succ f => rw [readLoop, if_neg (by decide), if_pos rfl] at h; exact (Option.some.inj h).symm
    subst this
    show some (saved _ []) = some (saved _ [])
    unfold saved fresh
    simp [List.zipIdx, optLine, text]

/-- C107, the other way round: reading an empty file never ends. -/
theorem empty_never_read (f : Nat) : load f [] = none := by
  have : readLoop 1 f [] = none := by
    induction f with
    | zero => rfl
    | succ f ih => rw [readLoop, if_pos rfl, ih]; rfl
  unfold load
  rw [show ([] : Bytes).length + 1 = 1 from rfl, this]
  rfl

/-- C107, the other way round: the file is overwritten in place. If that is interrupted, the file can have values which are neither
the old nor the new ones. -/
theorem interrupted : ∃ (old new : Bytes) (es : Entries) (k : Nat), save 50 es old = some new ∧
    (load 50 old).bind (fun l => entry l (lit "DestDir")) = some (lit "DestDir", lit "/a") ∧
    (load 50 new).bind (fun l => entry l (lit "DestDir")) = some (lit "DestDir", lit "/abcdef") ∧
    (load 50 (during old new k)).bind (fun l => entry l (lit "DestDir")) = some (lit "DestDir", lit "/abX=1") :=
  ⟨lit "DestDir=/a\nX=1\n", lit "DestDir=/abcdef\nX=1\n", [(lit "DestDir", lit "/abcdef"), (lit "X", lit "1")], 11, by decide +kernel⟩

/-- What is written is in the file when everything has been written. -/
theorem during_end (old new : Bytes) (h : old.length ≤ new.length) : during old new new.length = new := by
  unfold during
  rw [List.take_length, List.drop_eq_nil_of_le h, List.append_nil]

theorem during_start (old new : Bytes) : during old new 0 = old := rfl

/-! ### Examples -/

-- an option is changed, one is dropped, one is new; the comments and the empty line stay
example : save 100 [(lit "MainDir", lit "/data"), (lit "New", lit "x=y")] (lit "# first\n\nMainDir=~/old\nGone=1\n#Off=no") =
    some (lit "# first\n\nMainDir=/data\n#Off=noNew=x=y\n") := by decide +kernel

example : save 100 [(lit "maindir", lit "/data"), (lit "New", lit "x=y")] (lit "# first\n\nMainDir=~/old\nGone=1") =
    some (lit "# first\n\nmaindir=/data\nNew=x=y\n") := by decide +kernel

-- a comment with a blank before it counts as an option if there is `=` in it, and is dropped
example : save 100 [(lit "A", lit "1")] (lit " # a=b\nA=0\n") = some (lit "A=1\n") := by decide +kernel

-- the hypotheses of `saved_options` hold for these
example : Unique [(lit "MainDir", lit "/data"), (lit "New", lit "x=y")] ∧ NoOld [(lit "MainDir", lit "/data"), (lit "New", lit "x=y")] := by
  unfold Unique NoOld; decide +kernel

example : load 100 (lit "# first\nMainDir=/data \r\nNew=x=y") = some [(lit "MainDir", lit "/data"), (lit "New", lit "x=y")] := by
  decide +kernel

end Verif.SaveConf
