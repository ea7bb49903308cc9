import Verif.NzbLog
import Verif.MsgLogProps
import Verif.TextProps
import Verif.SaveConfProps
import Verif.RarRenameNames
/-! C114: the log of an entry survives restarts and crashes. -/
namespace Verif.NzbLog
open CStr MsgLog FeedFilter

/-! ### Specification -/

/-- Space, tab and the ends of lines. -/
def Blank (b : UInt8) : Prop := b = 32 ∨ b = 9 ∨ b = 10 ∨ b = 13

/-- The text of the time is one line without tabs of at most 26 characters, beginning with a letter (`Mon Nov 16 …`). -/
structure Good (e : Entry) : Prop where
  tab : (9 : UInt8) ∉ e.stamp
  line : (10 : UInt8) ∉ e.stamp
  short : e.stamp.length ≤ 26
  first : ∃ b l, e.stamp = b :: l ∧ ¬ Blank b

/-- Something is to be seen of the text. -/
def Visible (x : Bytes) : Prop := ∃ b ∈ x.take 900, ¬ Blank b

/-- Ends of lines and tabs become spaces. -/
def spaced (b : UInt8) : UInt8 := if b = 10 ∨ b = 13 ∨ b = 9 then 32 else b

/-- How much of a text is kept: a line has room for 1022 characters. -/
def room (e : Entry) : Nat := 1022 - (e.stamp.length + 1 + (dec (e.time % 2 ^ 32).toNat).length + 1 + (tag e.kind).length + 1)

/-- What is kept of a message: kind, time (as `int`), text. -/
def kept (e : Entry) : Kind × Int × Bytes := (e.kind, e.time.bmod (2 ^ 32), trimRight ((e.text.take (room e)).map spaced))

/-- The file after these messages were written. -/
def render (es : List Entry) : Bytes := es.foldl append []

/-! ### Lemmas -/

theorem blank_iff (b : UInt8) : isBlank b = true ↔ Blank b := by
  unfold isBlank Blank
  simp only [Bool.or_eq_true, beq_iff_eq]
  constructor
  · rintro (((h | h) | h) | h) <;> simp [h]
  · rintro (h | h | h | h) <;> simp [h]

theorem notBlank_iff (b : UInt8) : isBlank b = false ↔ ¬ Blank b := by
  rw [← blank_iff, Bool.not_eq_true]

theorem clean_eq (x : Bytes) : clean x = (x.take 1023).map spaced := rfl

theorem head_length (e : Entry) : (head e).length = e.stamp.length + 1 + (dec (e.time % 2 ^ 32).toNat).length + 1 + (tag e.kind).length + 1 := by
  unfold head
  simp only [List.length_append, List.length_singleton]

theorem tag_length (k : Kind) : (tag k).length ≤ 7 := by cases k <;> decide

theorem head_le {e : Entry} (h : Good e) : (head e).length ≤ 46 := by
  rw [head_length]
  have h1 := h.short
  have h2 := tag_length e.kind
  have h3 : (dec (e.time % 2 ^ 32).toNat).length ≤ 10 := RarRename.dec_length (k := 10) (by omega) (by omega)
  omega

theorem room_ge {e : Entry} (h : Good e) : 976 ≤ room e := by
  have := head_le h
  rw [head_length] at this
  unfold room
  omega

theorem dec_plain (n : Nat) : (9 : UInt8) ∉ dec n ∧ (10 : UInt8) ∉ dec n := by
  constructor <;> intro h <;> exact absurd (isDigit_dec n _ h) (by decide)

theorem tag_plain (k : Kind) : (9 : UInt8) ∉ tag k ∧ (10 : UInt8) ∉ tag k := by cases k <;> decide

theorem head_oneLine {e : Entry} (h : Good e) : (10 : UInt8) ∉ head e := by
  unfold head
  simp only [List.mem_append, List.mem_singleton, not_or]
  refine ⟨⟨⟨⟨⟨h.line, by decide⟩, (dec_plain _).2⟩, by decide⟩, (tag_plain _).2⟩, by decide⟩

theorem spaced_plain (b : UInt8) : spaced b ≠ 10 ∧ spaced b ≠ 9 := by
  unfold spaced
  split
  · constructor <;> decide
  · next h => exact ⟨fun q => h (Or.inl q), fun q => h (Or.inr (Or.inr q))⟩

theorem clean_plain (x : Bytes) : (10 : UInt8) ∉ clean x ∧ (9 : UInt8) ∉ clean x := by
  rw [clean_eq]
  constructor <;> intro h <;> obtain ⟨b, _, hb⟩ := List.mem_map.1 h
  · exact (spaced_plain b).1 hb
  · exact (spaced_plain b).2 hb

theorem line_oneLine {e : Entry} (h : Good e) : Text.OneLine (line e) := by
  unfold line Text.OneLine
  rw [List.mem_append, not_or]
  exact ⟨head_oneLine h, (clean_plain _).1⟩

theorem head_tabs (e : Entry) : 3 ≤ (head e).count 9 := by
  unfold head
  simp only [List.count_append, List.count_singleton_self]
  omega

theorem trimRight_append (a y : Bytes) (h : trimRight y ≠ []) : trimRight (a ++ y) = a ++ trimRight y := by
  unfold trimRight at *
  rw [List.reverse_append, List.dropWhile_append]
  have : (List.dropWhile isBlank y.reverse).isEmpty = false := by
    cases hd : List.dropWhile isBlank y.reverse with
    | nil => rw [hd] at h; exact absurd rfl h
    | cons b l => rfl
  rw [this]
  simp

theorem trimRight_keeps (a c : Bytes) (b : UInt8) (hb : isBlank b = false) : a ++ [b] <+: trimRight (a ++ b :: c) := by
  have h1 : trimRight (b :: c) ≠ [] := by
    intro h
    have := SaveConf.mem_trimRight (b :: c) b hb List.mem_cons_self
    rw [h] at this
    exact nomatch this
  rw [trimRight_append a _ h1]
  obtain ⟨d, hd⟩ := SaveConf.trimRight_prefix (b :: c)
  cases ht : trimRight (b :: c) with
  | nil => exact absurd ht h1
  | cons b' t =>
    rw [ht] at hd
    have : b' = b := (List.cons.inj hd).1
    exact ⟨t, by rw [this]; simp⟩

theorem trimRight_tabs (a c : Bytes) (b : UInt8) (hb : isBlank b = false) : a.count 9 ≤ (trimRight (a ++ b :: c)).count 9 := by
  obtain ⟨d, hd⟩ := trimRight_keeps a c b hb
  rw [← hd, List.count_append, List.count_append]
  omega

theorem afterTab_append (a r : Bytes) (h : (9 : UInt8) ∉ a) : afterTab (a ++ 9 :: r) = some r := by
  induction a with
  | nil => rfl
  | cons b a ih =>
    rw [List.mem_cons, not_or] at h
    show (if b = 9 then _ else _) = _
    rw [if_neg (fun q => h.1 q.symm)]
    exact ih h.2

theorem afterTab_none (l : Bytes) : afterTab l = none ↔ l.count 9 = 0 := by
  induction l with
  | nil => exact ⟨fun _ => rfl, fun _ => rfl⟩
  | cons b l ih =>
    show (if b = 9 then some l else afterTab l) = none ↔ _
    by_cases hb : b = 9
    · rw [if_pos hb, hb, List.count_cons_self]
      exact ⟨(fun q => nomatch q), fun q => by omega⟩
    · rw [if_neg hb, List.count_cons_of_ne hb]
      exact ih

theorem afterTab_some (l r : Bytes) (h : afterTab l = some r) : l.count 9 = r.count 9 + 1 := by
  induction l with
  | nil => exact nomatch h
  | cons b l ih =>
    have h' : (if b = 9 then some l else afterTab l) = some r := h
    by_cases hb : b = 9
    · rw [if_pos hb] at h'
      rw [hb, List.count_cons_self, Option.some.inj h']
    · rw [if_neg hb] at h'
      rw [List.count_cons_of_ne hb]
      exact ih h'

theorem parse_some (l : Bytes) (h : 3 ≤ (trimRight l).count 9) : ∃ r, parse l = some r := by
  unfold parse
  cases h1 : afterTab (trimRight l) with
  | none => rw [afterTab_none] at h1; omega
  | some t =>
    have c1 := afterTab_some _ _ h1
    dsimp only
    cases h2 : afterTab t with
    | none => rw [afterTab_none] at h2; omega
    | some k =>
      have c2 := afterTab_some _ _ h2
      dsimp only
      cases h3 : afterTab k with
      | none => rw [afterTab_none] at h3; omega
      | some x => exact ⟨_, rfl⟩

theorem parse_none (l : Bytes) (h : (trimRight l).count 9 < 3) : parse l = none := by
  unfold parse
  cases h1 : afterTab (trimRight l) with
  | none => rfl
  | some t =>
    have c1 := afterTab_some _ _ h1
    dsimp only
    cases h2 : afterTab t with
    | none => rfl
    | some k =>
      have c2 := afterTab_some _ _ h2
      dsimp only
      cases h3 : afterTab k with
      | none => rfl
      | some x =>
        have c3 := afterTab_some _ _ h3
        omega

theorem kindOf_tag (k : Kind) (r : Bytes) : kindOf (tag k ++ 9 :: r) = k := by
  cases k <;> simp [kindOf, tag, startsWith, lit, List.isPrefixOf]

theorem parse_head {e : Entry} (h : Good e) (y : Bytes) (hy : trimRight y ≠ []) :
    parse (head e ++ y) = some (e.time.bmod (2 ^ 32), e.kind, trimRight y) := by
  unfold parse
  rw [trimRight_append _ _ hy]
  have h1 : head e ++ trimRight y = e.stamp ++ 9 :: (dec (e.time % 2 ^ 32).toNat ++ 9 :: (tag e.kind ++ 9 :: trimRight y)) := by
    unfold head
    simp
  rw [h1, afterTab_append _ _ h.tab]
  dsimp only
  rw [afterTab_append _ _ (dec_plain _).1]
  dsimp only
  rw [afterTab_append _ _ (tag_plain _).1]
  dsimp only
  rw [kindOf_tag, atoll_dec _ _ (by omega) (by intro b hb; simp at hb; subst hb; decide)]
  have : (((e.time % 2 ^ 32).toNat : Nat) : Int) = e.time % 2 ^ 32 := by omega
  have hb : (e.time % 2 ^ 32).bmod (2 ^ 32) = e.time.bmod (2 ^ 32) := Int.emod_bmod ..
  rw [this, hb]

theorem take_line (e : Entry) (h : Good e) : (line e).take 1022 = head e ++ (e.text.take (room e)).map spaced := by
  unfold line
  have hl := head_le h
  rw [List.take_append, List.take_of_length_le (by omega), clean_eq, ← List.map_take, List.take_take]
  congr 3
  unfold room
  rw [← head_length]
  omega

theorem spaced_visible {x : Bytes} {n : Nat} (hn : 900 ≤ n) (h : Visible x) :
    ∃ a b c, (x.take n).map spaced = a ++ b :: c ∧ isBlank b = false ∧ a.length < 900 := by
  obtain ⟨b, hb, hn'⟩ := h
  have hb2 : spaced b = b := by
    unfold spaced
    rw [if_neg]
    rintro (q | q | q)
    · exact hn' (Or.inr (Or.inr (Or.inl q)))
    · exact hn' (Or.inr (Or.inr (Or.inr q)))
    · exact hn' (Or.inr (Or.inl q))
  obtain ⟨a, c, hac⟩ := List.append_of_mem hb
  have hl : a.length < 900 := by
    have := congrArg List.length hac
    rw [List.length_take, List.length_append, List.length_cons] at this
    omega
  have h1 : x.take n = x.take 900 ++ (x.take n).drop 900 := by
    conv => lhs; rw [← List.take_append_drop 900 (x.take n)]
    rw [List.take_take, Nat.min_eq_left hn]
  refine ⟨a.map spaced, b, c.map spaced ++ ((x.take n).drop 900).map spaced, ?_, (notBlank_iff b).2 hn', by rw [List.length_map]; exact hl⟩
  rw [h1, List.map_append, hac, List.map_append, List.map_cons, hb2, ← hac, ← h1]
  simp

theorem kept_nonempty {e : Entry} (h : Good e) (hv : Visible e.text) : trimRight ((e.text.take (room e)).map spaced) ≠ [] := by
  obtain ⟨a, b, c, h1, h2, _⟩ := spaced_visible (n := room e) (by have := room_ge h; omega) hv
  rw [h1]
  intro q
  obtain ⟨d, hd⟩ := trimRight_keeps a c b h2
  rw [q] at hd
  simp at hd

/-! ### Reading the file -/

theorem fgets_shorter : ∀ (n : Nat) (b : Bytes), (Text.fgets n b).2.length ≤ b.length
  | 0, b => Nat.le_refl _
  | n + 1, [] => Nat.le_refl _
  | n + 1, c :: r => by
    unfold Text.fgets
    split
    · simp
    · have := fgets_shorter n r
      simp only [List.length_cons]
      omega

theorem skipLine_shorter : ∀ b : Bytes, (Text.skipLine b).length ≤ b.length
  | [] => Nat.le_refl _
  | c :: r => by
    unfold Text.skipLine
    split
    · simp
    · have := skipLine_shorter r
      simp only [List.length_cons]
      omega

theorem readLine_shorter {b l r : Bytes} (h : Text.readLine 1024 b = some (l, r)) : r.length < b.length := by
  cases b with
  | nil => exact nomatch h
  | cons c b =>
    unfold Text.readLine at h
    rw [if_neg (by simp)] at h
    have hs : (Text.fgets (1024 - 1) (c :: b)).2.length < (c :: b).length := by
      show (Text.fgets (1022 + 1) (c :: b)).2.length < _
      unfold Text.fgets
      split
      · simp
      · have := fgets_shorter 1022 b
        simp only [List.length_cons]
        omega
    dsimp only at h
    split at h
    · have := Option.some.inj h
      rw [← (Prod.mk.inj this).2]
      exact hs
    · have := Option.some.inj h
      rw [← (Prod.mk.inj this).2]
      exact Nat.lt_of_le_of_lt (skipLine_shorter _) hs

theorem loadAux_fuel : ∀ (f g id : Nat) (b : Bytes), b.length ≤ f → b.length ≤ g → loadAux f id b = loadAux g id b := by
  intro f
  induction f with
  | zero =>
    intro g id b hf hg
    have hb : b = [] := List.length_eq_zero_iff.1 (by omega)
    subst hb
    cases g with
    | zero => rfl
    | succ g => rfl
  | succ f ih =>
    intro g id b hf hg
    cases g with
    | zero =>
      have hb : b = [] := List.length_eq_zero_iff.1 (by omega)
      subst hb
      rfl
    | succ g =>
      unfold loadAux
      cases hr : Text.readLine 1024 b with
      | none => rfl
      | some p =>
        obtain ⟨l, r⟩ := p
        have := readLine_shorter hr
        dsimp only
        cases parse l with
        | none => rfl
        | some q =>
          obtain ⟨t, k, x⟩ := q
          dsimp only
          rw [ih g (id + 1) r (by omega) (by omega)]

def loadFrom (id : Nat) (b : Bytes) : List Msg := loadAux b.length id b

theorem readLine_any (l rest : Bytes) (h : Text.OneLine l) : Text.readLine 1024 (l ++ 10 :: rest) = some (l.take 1022, rest) := by
  by_cases hl : l.length + 2 ≤ 1024
  · rw [Text.readLine_line l rest 1024 h hl, List.take_of_length_le (by omega)]
  · rw [Text.readLine_long l rest 1024 h (by omega) (by omega)]

theorem loadFrom_some (id : Nat) (l rest : Bytes) (h : Text.OneLine l) (t : Int) (k : Kind) (x : Bytes) (hp : parse (l.take 1022) = some (t, k, x)) :
    loadFrom id (l ++ 10 :: rest) = ⟨id + 1, k, t, x⟩ :: loadFrom (id + 1) rest := by
  have hlen : (l ++ 10 :: rest).length = l.length + rest.length + 1 := by simp; omega
  unfold loadFrom
  rw [hlen]
  conv => lhs; unfold loadAux
  rw [readLine_any l rest h]
  dsimp only
  rw [hp]
  dsimp only
  rw [loadAux_fuel (l.length + rest.length) rest.length (id + 1) rest (by omega) (by omega)]

theorem loadFrom_none (id : Nat) (l rest : Bytes) (h : Text.OneLine l) (hp : parse (l.take 1022) = none) : loadFrom id (l ++ 10 :: rest) = [] := by
  have hlen : (l ++ 10 :: rest).length = l.length + rest.length + 1 := by simp; omega
  unfold loadFrom
  rw [hlen]
  conv => lhs; unfold loadAux
  rw [readLine_any l rest h]
  dsimp only
  rw [hp]

theorem loadFrom_ids : ∀ (f id : Nat) (b : Bytes), (loadAux f id b).map (·.id) = List.range' (id + 1) (loadAux f id b).length := by
  intro f
  induction f with
  | zero => intro id b; rfl
  | succ f ih =>
    intro id b
    unfold loadAux
    cases Text.readLine 1024 b with
    | none => rfl
    | some p =>
      obtain ⟨l, r⟩ := p
      dsimp only
      cases parse l with
      | none => rfl
      | some q =>
        obtain ⟨t, k, x⟩ := q
        dsimp only
        rw [List.map_cons, ih, List.length_cons, List.range'_succ]

theorem render_foldl (es : List Entry) : ∀ b : Bytes, es.foldl append b = b ++ es.flatMap (fun e => line e ++ [10]) := by
  induction es with
  | nil => intro b; simp
  | cons e es ih =>
    intro b
    rw [List.foldl_cons, ih, List.flatMap_cons]
    unfold append
    simp

theorem render_cons (e : Entry) (es : List Entry) : render (e :: es) = line e ++ 10 :: render es := by
  unfold render
  rw [render_foldl, render_foldl, List.flatMap_cons]
  simp

theorem loadFrom_render (es : List Entry) (h : ∀ e ∈ es, Good e ∧ Visible e.text) : ∀ (id : Nat) (rest : Bytes),
    (loadFrom id (render es ++ rest)).map Msg.said = es.map kept ++ (loadFrom (id + es.length) rest).map Msg.said := by
  induction es with
  | nil => intro id rest; rfl
  | cons e es ih =>
    intro id rest
    obtain ⟨hg, hv⟩ := h e List.mem_cons_self
    rw [render_cons, List.append_assoc, List.cons_append]
    rw [loadFrom_some id (line e) _ (line_oneLine hg) _ _ _ (by rw [take_line e hg]; exact parse_head hg _ (kept_nonempty hg hv))]
    rw [List.map_cons, ih (fun x hx => h x (List.mem_cons_of_mem _ hx)), List.map_cons, List.length_cons, List.cons_append]
    have : id + 1 + es.length = id + (es.length + 1) := by omega
    rw [this]
    rfl

/-! ### Theorems -/

/-- C114: the messages of an entry are read back in order with kind, time and text, numbered from 1. -/
theorem log_read_back_partial (es : List Entry) (h : ∀ e ∈ es, Good e ∧ Visible e.text) :
    (load (render es)).map Msg.said = es.map kept ∧ (load (render es)).map (·.id) = List.range' 1 es.length := by
  have h1 : (load (render es)).map Msg.said = es.map kept := by
    have := loadFrom_render es h 0 []
    rw [List.append_nil] at this
    show (loadFrom 0 (render es)).map Msg.said = _
    rw [this]
    exact List.append_nil _
  refine ⟨h1, ?_⟩
  have hl : (load (render es)).length = es.length := by
    have := congrArg List.length h1
    rw [List.length_map, List.length_map] at this
    exact this
  rw [← hl]
  exact loadFrom_ids _ 0 _

/-- C114: a text without tabs and line ends, not ending in a space and of at most 900 characters is kept as it is, and the time until 2038. -/
theorem kept_plain {e : Entry} (h : Good e) (hp : ∀ b ∈ e.text, b ≠ 9 ∧ b ≠ 10 ∧ b ≠ 13) (hl : e.text.length ≤ 900) (hs : ∀ b, e.text.getLast? = some b → b ≠ 32)
    (ht : 0 ≤ e.time) (ht2 : e.time < 2 ^ 31) : kept e = (e.kind, e.time, e.text) := by
  unfold kept
  have h1 : (e.text.take (room e)).map spaced = e.text := by
    rw [List.take_of_length_le (by have := room_ge h; omega)]
    have : ∀ l : Bytes, (∀ b ∈ l, b ≠ 9 ∧ b ≠ 10 ∧ b ≠ 13) → l.map spaced = l := by
      intro l
      induction l with
      | nil => intro _; rfl
      | cons b l ih =>
        intro hl
        have hb := hl b List.mem_cons_self
        rw [List.map_cons, ih (fun x hx => hl x (List.mem_cons_of_mem _ hx))]
        unfold spaced
        rw [if_neg]
        rintro (q | q | q)
        · exact hb.2.1 q
        · exact hb.2.2 q
        · exact hb.1 q
    exact this _ hp
  have h2 : trimRight e.text = e.text := by
    unfold trimRight
    cases hr : e.text.reverse with
    | nil => rw [List.reverse_eq_nil_iff.1 hr]; rfl
    | cons b l =>
      have hg : e.text.getLast? = some b := by
        rw [List.getLast?_eq_head?_reverse, hr]
        rfl
      have hm : b ∈ e.text := List.mem_of_getLast? hg
      have hb : isBlank b = false := by
        rw [notBlank_iff]
        have := hp b hm
        rintro (q | q | q | q)
        · exact hs b hg q
        · exact this.1 q
        · exact this.2.1 q
        · exact this.2.2 q
      rw [List.dropWhile_cons_of_neg (by rw [hb]; exact Bool.false_ne_true), ← hr, List.reverse_reverse]
  have h3 : e.time.bmod (2 ^ 32) = e.time := by
    rw [Int.bmod_def]
    omega
  rw [h1, h2, h3]

/-- C114: of a longer text at least the first 976 characters are kept, up to spaces at the end. -/
theorem kept_long {e : Entry} (h : Good e) : 976 ≤ room e ∧ (kept e).2.2 <+: e.text.map spaced := by
  refine ⟨room_ge h, ?_⟩
  refine List.IsPrefix.trans (SaveConf.trimRight_prefix _) ?_
  rw [List.map_take]
  exact List.take_prefix _ _

/-- A merged line has enough tabs. -/
theorem merged_some {e m : Entry} (he : Good e) (hev : Visible e.text) (hm : Good m) (hv : Visible m.text) (p : Bytes) (hp : p <+: line e) :
    ∃ r, parse ((p ++ line m).take 1022) = some r := by
  have key : ∀ a b c, (p ++ line m).take 1022 = a ++ b :: c → isBlank b = false → 3 ≤ a.count 9 → ∃ r, parse ((p ++ line m).take 1022) = some r := by
    intro a b c h1 h2 h3
    rw [h1]
    refine parse_some _ (Nat.le_trans h3 (trimRight_tabs a c b h2))
  by_cases h1 : 1022 ≤ p.length
  · have h2 : (p ++ line m).take 1022 = (line e).take 1022 := by
      rw [List.take_append_of_le_length h1]
      obtain ⟨q, hq⟩ := hp
      rw [← hq, List.take_append_of_le_length h1]
    obtain ⟨a, b, c, g1, g2, _⟩ := spaced_visible (n := room e) (by have := room_ge he; omega) hev
    refine key (head e ++ a) b c ?_ g2 ?_
    · rw [h2, take_line e he, g1, List.append_assoc]
    · rw [List.count_append]
      have := head_tabs e
      omega
  · by_cases h2 : 3 ≤ p.count 9
    · obtain ⟨b, l, g1, g2⟩ := hm.first
      have hlm : ∃ t, line m = b :: t := by
        unfold line head
        rw [g1]
        exact ⟨_, rfl⟩
      obtain ⟨t, ht⟩ := hlm
      refine key p b (t.take (1021 - p.length)) ?_ ((notBlank_iff b).2 g2) h2
      rw [ht, List.take_append, List.take_of_length_le (by omega)]
      have : 1022 - p.length = (1021 - p.length) + 1 := by omega
      rw [this, List.take_succ_cons]
    · have h3 : p.length < (head e).length := by
        refine Nat.lt_of_not_le fun q => h2 ?_
        have : head e <+: p := List.prefix_of_prefix_length_le (List.prefix_append _ _) hp q
        obtain ⟨r, hr⟩ := this
        rw [← hr, List.count_append]
        have := head_tabs e
        omega
      have l1 := head_le he
      have l2 := head_le hm
      obtain ⟨a, b, c, g1, g2, g3⟩ := spaced_visible (x := m.text) (n := 1023) (by omega) hv
      refine key (p ++ head m ++ a) b (c.take (1021 - p.length - (head m).length - a.length)) ?_ g2 ?_
      · have e1 : p ++ line m = (p ++ head m ++ a) ++ b :: c := by
          unfold line
          rw [clean_eq, g1]
          simp
        rw [e1, List.take_append, List.take_of_length_le (by simp only [List.length_append]; omega)]
        congr 1
        have : 1022 - (p ++ head m ++ a).length = (1021 - p.length - (head m).length - a.length) + 1 := by
          simp only [List.length_append]
          omega
        rw [this, List.take_succ_cons]
      · rw [List.count_append, List.count_append]
        have := head_tabs m
        omega

/-- C114: if a crash leaves only the beginning of a message in the file, all messages before it are read back, and of the messages written
later all but the first. -/
theorem torn_write (before after : List Entry) (e m : Entry) (p : Bytes) (h : ∀ x ∈ before ++ e :: m :: after, Good x ∧ Visible x.text) (hp : p <+: line e) :
    ∃ x, (load (render before ++ p ++ render (m :: after))).map Msg.said = before.map kept ++ x :: after.map kept := by
  obtain ⟨he, hev⟩ := h e (by simp)
  obtain ⟨hm, hmv⟩ := h m (by simp)
  obtain ⟨⟨t, k, x⟩, hx⟩ := merged_some he hev hm hmv p hp
  have hone : Text.OneLine (p ++ line m) := by
    unfold Text.OneLine
    rw [List.mem_append, not_or]
    refine ⟨fun q => ?_, line_oneLine hm⟩
    obtain ⟨r, hr⟩ := hp
    exact line_oneLine he (by rw [← hr]; exact List.mem_append_left _ q)
  refine ⟨(k, t, x), ?_⟩
  show (loadFrom 0 (render before ++ p ++ render (m :: after))).map Msg.said = _
  have e1 : render before ++ p ++ render (m :: after) = render before ++ ((p ++ line m) ++ 10 :: render after) := by
    rw [render_cons]
    simp
  rw [e1, loadFrom_render before (fun y hy => h y (List.mem_append_left _ hy)), loadFrom_some _ _ _ hone t k x hx, List.map_cons]
  have := loadFrom_render after (fun y hy => h y (by simp [hy])) (0 + before.length + 1) []
  rw [List.append_nil] at this
  rw [this]
  simp [loadFrom, loadAux, Msg.said]

/-- C114: who reads while a message is being written gets all messages before it and at most one more. -/
theorem read_while_written (before : List Entry) (e : Entry) (p : Bytes) (h : ∀ x ∈ before, Good x ∧ Visible x.text) (he : Good e) (hp : p <+: line e) :
    (load (render before ++ p)).map Msg.said = before.map kept ∨ ∃ x, (load (render before ++ p)).map Msg.said = before.map kept ++ [x] := by
  have hone : (10 : UInt8) ∉ p := by
    intro q
    obtain ⟨r, hr⟩ := hp
    exact line_oneLine he (by rw [← hr]; exact List.mem_append_left _ q)
  have hskip : ∀ l : Bytes, (10 : UInt8) ∉ l → Text.skipLine l = [] := by
    intro l
    induction l with
    | nil => intro _; rfl
    | cons c l ih =>
      intro hl
      rw [List.mem_cons, not_or] at hl
      unfold Text.skipLine
      rw [if_neg (fun q => hl.1 q.symm)]
      exact ih hl.2
  have hfg : ∀ (n : Nat) (l : Bytes), (10 : UInt8) ∉ l → (10 : UInt8) ∉ (Text.fgets n l).1 ∧ (10 : UInt8) ∉ (Text.fgets n l).2 := by
    intro n
    induction n with
    | zero => intro l hl; exact ⟨(fun q => nomatch q), hl⟩
    | succ n ih =>
      intro l hl
      cases l with
      | nil => exact ⟨(fun q => nomatch q), (fun q => nomatch q)⟩
      | cons c l =>
        rw [List.mem_cons, not_or] at hl
        unfold Text.fgets
        rw [if_neg (fun q => hl.1 q.symm)]
        have := ih l hl.2
        exact ⟨fun q => (List.mem_cons.1 q).elim hl.1 this.1, this.2⟩
  have hr := loadFrom_render before h 0 p
  have hread : loadFrom (0 + before.length) p = [] ∨ ∃ x, loadFrom (0 + before.length) p = [x] := by
    unfold loadFrom
    cases p with
    | nil => exact Or.inl rfl
    | cons c p =>
      have hrl : ∃ l, Text.readLine 1024 (c :: p) = some (l, []) := by
        unfold Text.readLine
        rw [if_neg (by simp)]
        dsimp only
        rw [if_neg (fun q => (hfg _ _ hone).1 (List.mem_of_getLast? q)), hskip _ (hfg _ _ hone).2]
        exact ⟨_, rfl⟩
      obtain ⟨l, hl⟩ := hrl
      rw [List.length_cons]
      unfold loadAux
      rw [hl]
      dsimp only
      cases parse l with
      | none => exact Or.inl rfl
      | some q =>
        obtain ⟨t, k, x⟩ := q
        refine Or.inr ⟨⟨0 + before.length + 1, k, t, x⟩, ?_⟩
        dsimp only
        cases p.length <;> rfl
  show (loadFrom 0 (render before ++ p)).map Msg.said = _ ∨ ∃ x, (loadFrom 0 (render before ++ p)).map Msg.said = _
  rw [hr]
  rcases hread with q | ⟨x, q⟩
  · rw [q]
    exact Or.inl (List.append_nil _)
  · rw [q]
    exact Or.inr ⟨Msg.said x, rfl⟩

theorem trimRight_blanks : ∀ (y a : Bytes), (∀ b ∈ y, isBlank b = true) → trimRight (a ++ y) = trimRight a := by
  intro y
  induction y with
  | nil => intro a _; rw [List.append_nil]
  | cons b y ih =>
    intro a h
    have : a ++ b :: y = (a ++ [b]) ++ y := by simp
    rw [this, ih (a ++ [b]) (fun x hx => h x (List.mem_cons_of_mem _ hx)), SaveConf.trimRight_blank a b (h b List.mem_cons_self)]

/-- C114 (refutes): a message without visible text hides all messages written after it. -/
theorem blank_hides (before after : List Entry) (e : Entry) (h : ∀ x ∈ before, Good x ∧ Visible x.text) (he : Good e) (hb : ∀ b ∈ e.text, Blank b) :
    (load (render (before ++ e :: after))).map Msg.said = before.map kept := by
  have e1 : render (before ++ e :: after) = render before ++ (line e ++ 10 :: render after) := by
    rw [← render_cons]
    unfold render
    rw [render_foldl, render_foldl, render_foldl]
    simp
  show (loadFrom 0 (render (before ++ e :: after))).map Msg.said = _
  rw [e1, loadFrom_render before h, loadFrom_none _ _ _ (line_oneLine he)]
  · exact List.append_nil _
  · refine parse_none _ ?_
    rw [take_line e he, trimRight_blanks]
    · have h2 : head e = (e.stamp ++ [9] ++ dec (e.time % 2 ^ 32).toNat ++ [9] ++ tag e.kind) ++ [9] := rfl
      rw [h2, SaveConf.trimRight_blank _ 9 (by decide)]
      obtain ⟨d, hd⟩ := SaveConf.trimRight_prefix (e.stamp ++ [9] ++ dec (e.time % 2 ^ 32).toNat ++ [9] ++ tag e.kind)
      have c1 := congrArg (List.count 9) hd
      have z1 := List.count_eq_zero.2 he.tab
      have z2 := List.count_eq_zero.2 (dec_plain (e.time % 2 ^ 32).toNat).1
      have z3 := List.count_eq_zero.2 (tag_plain e.kind).1
      simp only [List.count_append, List.count_singleton_self, z1, z2, z3] at c1
      omega
    · intro b hbm
      obtain ⟨c, hc, rfl⟩ := List.mem_map.1 hbm
      rw [blank_iff]
      have := hb c (List.mem_of_mem_take hc)
      unfold spaced
      split
      · exact Or.inl rfl
      · exact this

/-- C114: the log on the disk is shown; only if nothing can be read from it, the messages in memory. -/
theorem shown_log (es : List Entry) (h : ∀ e ∈ es, Good e ∧ Visible e.text) (cached : List Msg) :
    (shownLog (render es) cached).map Msg.said = if es = [] then cached.map Msg.said else es.map kept := by
  obtain ⟨h1, _⟩ := log_read_back_partial es h
  unfold shownLog
  cases es with
  | nil => rfl
  | cons e es =>
    rw [if_neg (List.cons_ne_nil _ _), ← h1]
    cases hl : load (render (e :: es)) with
    | nil => rw [hl] at h1; exact nomatch h1
    | cons m ms => rfl

/-! ### Examples -/

def ex1 : Entry := ⟨lit "Mon Nov 16 23:40:44 2026", 1794872444, .warning, lit "Unpack for x failed"⟩
def ex2 : Entry := ⟨lit "Mon Nov 16 23:40:45 2026", 1794872445, .info, lit "a\tb "⟩

example : Good ex1 := ⟨by decide, by decide, by decide, ⟨77, lit "on Nov 16 23:40:44 2026", by decide, by unfold Blank; decide⟩⟩
example : Visible ex2.text := ⟨97, by decide, by unfold Blank; decide⟩
example : load (render [ex1, ex2]) = [⟨1, .warning, 1794872444, lit "Unpack for x failed"⟩, ⟨2, .info, 1794872445, lit "a b"⟩] := by decide +kernel
example : load (render [ex1, { ex2 with text := [] }, ex1]) = [⟨1, .warning, 1794872444, lit "Unpack for x failed"⟩] := by decide +kernel
example : load (render [ex1] ++ lit "Mon N" ++ render [ex2, ex1]) = [⟨1, .warning, 1794872444, lit "Unpack for x failed"⟩, ⟨2, .info, 1794872445, lit "a b"⟩,
    ⟨3, .warning, 1794872444, lit "Unpack for x failed"⟩] := by decide +kernel

end Verif.NzbLog
