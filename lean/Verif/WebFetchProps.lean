import Verif.WebFetch
import Verif.WebUrlProps
/-
What a web-download leaves on the disk, and how often it is tried (C106).
-/
namespace Verif.WebFetch
open CStr OptStore WebUrl

/-! ### Responses as they are written -/

/-- The line is one of a header: not empty, not too long, without control characters at its borders. -/
structure LineOk (l : Bytes) : Prop where
  ne : l ≠ []
  head : l.head? ≠ some 13
  free : ∀ b ∈ l, b ≠ 0 ∧ b ≠ 10
  last : ∀ b, l.getLast? = some b → FeedFilter.isBlank b = false
  short : l.length ≤ 10000

/-- The lines, each with its end. -/
def linesText (ls : List Bytes) : Bytes := ls.flatMap (· ++ [13, 10])

/-- A response: the first line, the headers, an empty line and the body. -/
def respond (first : Bytes) (hs : List Bytes) (bd : Bytes) : Bytes := linesText (first :: hs) ++ [13, 10] ++ bd

/-- The first line of a response with the code. -/
def FirstLine (code : String) (l : Bytes) : Prop := ∃ v more, l = lit "HTTP" ++ v ++ 32 :: (lit code ++ more) ∧ 32 ∉ v

/-- The header has this name (up to case) and the value `v`. -/
def Names (w : String) (h v : Bytes) : Prop := ∃ x, h = x ++ v ∧ Same x (lit w)

theorem same_length {a b : Bytes} (h : Same a b) : a.length = b.length := by
  have := congrArg List.length h
  simpa using this

theorem cutNoCase_iff (w : String) (h v : Bytes) : cutNoCase (lit w) h = some v ↔ Names w h v := by
  unfold cutNoCase Names
  constructor
  · intro e
    split at e
    · next c =>
      refine ⟨h.take (lit w).length, ?_, (same_iff _ _).1 c⟩
      rw [← Option.some.inj e, List.take_append_drop]
    · exact nomatch e
  · rintro ⟨x, rfl, hs⟩
    rw [← same_length hs, List.take_left, List.drop_left, if_pos ((same_iff _ _).2 hs)]

theorem cutNoCase_none (w : String) (h : Bytes) : cutNoCase (lit w) h = none ↔ ∀ v, ¬ Names w h v := by
  constructor
  · intro e v hv
    rw [(cutNoCase_iff w h v).2 hv] at e
    exact nomatch e
  · intro hn
    cases e : cutNoCase (lit w) h with
    | none => rfl
    | some v => exact absurd ((cutNoCase_iff w h v).1 e) (hn v)

theorem cstr_append (a b : Bytes) (h : ∀ x ∈ a, x ≠ 0) : cstr (a ++ b) = a ++ cstr b := by
  induction a with
  | nil => rfl
  | cons x a ih =>
    rw [List.cons_append, cstr, if_neg (h x List.mem_cons_self), ih (fun y hy => h y (List.mem_cons_of_mem _ hy))]
    rfl

theorem trimRight_line (l : Bytes) (h : ∀ b, l.getLast? = some b → FeedFilter.isBlank b = false) :
    FeedFilter.trimRight (l ++ [13, 10]) = l := by
  unfold FeedFilter.trimRight
  rw [List.reverse_append, show ([13, 10] : Bytes).reverse = [10, 13] from rfl]
  show (List.dropWhile FeedFilter.isBlank (10 :: 13 :: l.reverse)).reverse = l
  rw [List.dropWhile_cons_of_pos (by decide), List.dropWhile_cons_of_pos (by decide)]
  cases hl : l.reverse with
  | nil => rw [List.reverse_eq_nil_iff] at hl; subst hl; rfl
  | cons b r =>
    have : l = r.reverse ++ [b] := by rw [← List.reverse_reverse l, hl, List.reverse_cons]
    have hb := h b (by rw [this, List.getLast?_concat])
    rw [List.dropWhile_cons_of_neg (by rw [hb]; exact Bool.false_ne_true), ← hl, List.reverse_reverse]

theorem readLine_line (l r : Bytes) (h10 : ∀ b ∈ l, b ≠ 10) (hl : l.length ≤ 10000) :
    readLine (l ++ [13, 10] ++ r) = (l ++ [13, 10], r) := by
  unfold readLine
  have e : l ++ [13, 10] ++ r = (l ++ [13]) ++ (10 :: r) := by simp
  have t : ((l ++ [13]) ++ (10 :: r)).takeWhile (· ≠ 10) = l ++ [13] := by
    refine (takeWhile_until 10 _ _ ?_ (Or.inr rfl)).1
    intro h
    rcases List.mem_append.mp h with h | h
    · exact h10 _ h rfl
    · exact absurd h (by decide)
  have hn : min ((((l ++ [13, 10] ++ r).takeWhile (· ≠ 10))).length + 1) 10239 = (l ++ [13, 10]).length := by
    rw [e, t]; simp; omega
  rw [hn]
  dsimp only
  rw [List.take_left, List.drop_left]

theorem readLine_blank (r : Bytes) : readLine ([13, 10] ++ r) = ([13, 10], r) :=
  readLine_line [] r (fun _ h => nomatch h) (Nat.zero_le _)

theorem headerLoop_line (f : Nat) (h : Head) (l r : Bytes) (ok : LineOk l) :
    headerLoop (f + 1) h (l ++ [13, 10] ++ r) =
      if (processHeader h l).redirected then (.redirect, processHeader h l, r) else headerLoop f (processHeader h l) r := by
  rw [headerLoop]
  dsimp only
  rw [readLine_line l r (fun b hb => (ok.free b hb).2) ok.short]
  dsimp only
  have hh : (l ++ [13, 10]).head? = l.head? := by
    cases l with
    | nil => exact absurd rfl ok.ne
    | cons _ _ => rfl
  rw [if_neg (by simp), if_neg]
  · rw [show cstr (l ++ [13, 10]) = l ++ [13, 10] from cstr_append l [13, 10] (fun b hb => (ok.free b hb).1), trimRight_line l ok.last]
  · rw [hh]
    intro e
    rcases e with e | e
    · exact ok.head e
    · cases l with
      | nil => exact nomatch e
      | cons b l =>
        obtain rfl := Option.some.inj e
        exact (ok.free _ List.mem_cons_self).2 rfl

theorem headerLoop_end (f : Nat) (h : Head) (r : Bytes) : headerLoop (f + 1) h ([13, 10] ++ r) = (.running, h, r) := by
  rw [headerLoop]
  dsimp only
  rw [readLine_blank]
  dsimp only
  rw [if_neg (by decide), if_pos (by decide)]

theorem processHeader_flags (h : Head) (l : Bytes) : (processHeader h l).redirecting = h.redirecting ∧
    (h.redirecting = false → (processHeader h l).redirected = h.redirected ∧ (processHeader h l).url = h.url) := by
  unfold processHeader
  split
  · exact ⟨rfl, fun _ => ⟨rfl, rfl⟩⟩
  · split
    · exact ⟨rfl, fun _ => ⟨rfl, rfl⟩⟩
    · split
      · split
        · exact ⟨rfl, fun _ => ⟨rfl, rfl⟩⟩
        · exact ⟨rfl, fun _ => ⟨rfl, rfl⟩⟩
        · exact ⟨rfl, fun _ => ⟨rfl, rfl⟩⟩
      · split
        · next hr =>
          split
          · exact ⟨rfl, fun e => by rw [e] at hr; exact nomatch hr⟩
          · exact ⟨rfl, fun _ => ⟨rfl, rfl⟩⟩
        · exact ⟨rfl, fun _ => ⟨rfl, rfl⟩⟩

/-- No header of the list asks for a redirection, or the response is not one. -/
def NoLocation (h : Head) (hs : List Bytes) : Prop := h.redirecting = false ∨ ∀ l ∈ hs, ∀ v, ¬ Names "Location: " l v

theorem processHeader_no_location (h : Head) (l : Bytes) (hn : h.redirecting = false ∨ ∀ v, ¬ Names "Location: " l v) :
    (processHeader h l).redirected = h.redirected ∧ (processHeader h l).url = h.url := by
  rcases hn with hn | hn
  · exact (processHeader_flags h l).2 hn
  · unfold processHeader
    rw [(cutNoCase_none _ _).2 hn]
    split
    · exact ⟨rfl, rfl⟩
    · split
      · exact ⟨rfl, rfl⟩
      · split
        · split <;> exact ⟨rfl, rfl⟩
        · split <;> exact ⟨rfl, rfl⟩

theorem headerLoop_all (hs : List Bytes) (bd : Bytes) : ∀ (f : Nat) (h : Head), hs.length < f → (∀ l ∈ hs, LineOk l) →
    NoLocation h hs → h.redirected = false →
    headerLoop f h (linesText hs ++ [13, 10] ++ bd) = (.running, hs.foldl processHeader h, bd) := by
  induction hs with
  | nil =>
    intro f h hf _ _ _
    obtain ⟨f, rfl⟩ : ∃ g, f = g + 1 := ⟨f - 1, by simp only [List.length_nil] at hf; omega⟩
    exact headerLoop_end f h bd
  | cons l hs ih =>
    intro f h hf hok hno hr
    obtain ⟨f, rfl⟩ : ∃ g, f = g + 1 := ⟨f - 1, by simp only [List.length_cons] at hf; omega⟩
    have e : linesText (l :: hs) ++ [13, 10] ++ bd = l ++ [13, 10] ++ (linesText hs ++ [13, 10] ++ bd) := by
      unfold linesText; rw [List.flatMap_cons]; simp only [List.append_assoc]
    have hk := processHeader_no_location h l (hno.imp id (fun g => g l List.mem_cons_self))
    rw [e, headerLoop_line f h l _ (hok l List.mem_cons_self), if_neg (by rw [hk.1, hr]; exact Bool.false_ne_true),
      ih f _ (by simp only [List.length_cons] at hf; omega) (fun x hx => hok x (List.mem_cons_of_mem _ hx)) ?_ (by rw [hk.1, hr])]
    · rfl
    · rcases hno with hno | hno
      · exact Or.inl (by rw [(processHeader_flags h l).1]; exact hno)
      · exact Or.inr (fun x hx => hno x (List.mem_cons_of_mem _ hx))

theorem names_first {w : String} {h v : Bytes} (hn : Names w h v) (c : UInt8) (hc : (lit w).head? = some c) :
    ∃ d, h.head? = some d ∧ WildMask.lower d = WildMask.lower c := by
  obtain ⟨x, rfl, hs⟩ := hn
  unfold Same at hs
  have := congrArg List.head? hs
  rw [List.head?_map, List.head?_map, hc] at this
  cases x with
  | nil => exact nomatch this
  | cons d x => exact ⟨d, rfl, Option.some.inj this⟩

theorem firstLine_head {code : String} {l : Bytes} (h : FirstLine code l) : l.head? = some 72 := by
  obtain ⟨v, more, rfl, _⟩ := h
  rfl

/-- The first line is no header. -/
theorem processHeader_first (h : Head) (code : String) (l : Bytes) (hl : FirstLine code l) : processHeader h l = h := by
  have hn : ∀ (w : String) (c : UInt8), (lit w).head? = some c → WildMask.lower c ≠ 104 → cutNoCase (lit w) l = none := by
    intro w c hw hc
    rw [cutNoCase_none]
    intro v hv
    obtain ⟨d, h1, h2⟩ := names_first hv c hw
    rw [firstLine_head hl] at h1
    obtain rfl := Option.some.inj h1
    exact hc (h2.symm.trans (by decide))
  unfold processHeader
  rw [hn "Content-Length: " 67 (by decide +kernel) (by decide), hn "Content-Encoding: gzip" 67 (by decide +kernel) (by decide),
    hn "Content-Disposition: " 67 (by decide +kernel) (by decide), hn "Location: " 76 (by decide +kernel) (by decide)]
  dsimp only
  split <;> rfl

theorem checkResponse_code (code : String) (l : Bytes) (h : FirstLine code l) :
    ∃ more, checkResponse l = checkResponse (lit "HTTP " ++ (lit code ++ more)) := by
  obtain ⟨v, more, rfl, hv⟩ := h
  refine ⟨more, ?_⟩
  have hdrop : ∀ u : Bytes, (32 : UInt8) ∉ u → (u ++ 32 :: (lit code ++ more)).dropWhile (· ≠ 32) = 32 :: (lit code ++ more) :=
    fun u hu => (takeWhile_until 32 u _ hu (Or.inr rfl)).2
  have h1 : (32 : UInt8) ∉ lit "HTTP" ++ v := fun g => (List.mem_append.mp g).elim (by decide +kernel) hv
  have e : lit "HTTP " ++ (lit code ++ more) = lit "HTTP" ++ 32 :: (lit code ++ more) := by
    rw [show lit "HTTP " = lit "HTTP" ++ [32] by decide +kernel]; simp
  have p1 : ∀ x : Bytes, startsWith (lit "HTTP") (lit "HTTP" ++ x) = true := by
    intro x
    show List.isPrefixOf (lit "HTTP") (lit "HTTP" ++ x) = true
    rw [List.isPrefixOf_iff_prefix]
    exact List.prefix_append ..
  unfold checkResponse
  rw [e, hdrop _ h1, hdrop _ (by decide +kernel), List.append_assoc, p1, p1]
  have c1 : ∀ u : Bytes, (u ++ 32 :: (lit code ++ more)).contains 32 = true := by
    intro u; rw [List.contains_iff_mem]; simp
  rw [← List.append_assoc, c1, c1]

/-- What the first line says. -/
theorem checkResponse_spec (l : Bytes) :
    (FirstLine "200" l → checkResponse l = (.running, false)) ∧
    (∀ code ∈ ["301", "302", "303", "307", "308"], FirstLine code l → checkResponse l = (.running, true)) ∧
    (FirstLine "404" l → checkResponse l = (.notFound, false)) ∧
    (∀ code ∈ ["400", "499"], FirstLine code l → checkResponse l = (.connectError, false)) := by
  refine ⟨fun h => ?_, ?_, fun h => ?_, ?_⟩
  · obtain ⟨more, e⟩ := checkResponse_code "200" l h
    rw [e]; rfl
  · intro code hc h
    obtain ⟨more, e⟩ := checkResponse_code code l h
    rw [e]
    simp only [List.mem_cons, List.not_mem_nil, or_false] at hc
    rcases hc with rfl | rfl | rfl | rfl | rfl <;> rfl
  · obtain ⟨more, e⟩ := checkResponse_code "404" l h
    rw [e]; rfl
  · intro code hc h
    obtain ⟨more, e⟩ := checkResponse_code code l h
    rw [e]
    simp only [List.mem_cons, List.not_mem_nil, or_false] at hc
    rcases hc with rfl | rfl <;> rfl

/-- Every other first line is a failure. -/
theorem checkResponse_other (l : Bytes)
    (h : ∀ code ∈ ["200", "301", "302", "303", "307", "308", "404", "400", "499"], ¬ FirstLine code l) :
    checkResponse l = (.failed, false) := by
  unfold checkResponse
  by_cases c : (!startsWith (lit "HTTP") l || !l.contains 32) = true
  · rw [if_pos c]
  · rw [if_neg c]
    have c1 : startsWith (lit "HTTP") l = true := by
      cases e : startsWith (lit "HTTP") l with
      | true => rfl
      | false => rw [e] at c; exact absurd rfl c
    have c2 : (32 : UInt8) ∈ l := by
      rw [← List.contains_iff_mem]
      cases e : l.contains 32 with
      | true => rfl
      | false => rw [e, Bool.not_false, Bool.or_true] at c; exact absurd rfl c
    obtain ⟨t, rfl⟩ := List.isPrefixOf_iff_prefix.mp c1
    have ht : (32 : UInt8) ∈ t := (List.mem_append.mp c2).elim (fun g => absurd g (by decide +kernel)) id
    have hd : ∃ x, t.dropWhile (· ≠ 32) = 32 :: x := by
      cases e : t.dropWhile (· ≠ 32) with
      | nil =>
        have := List.takeWhile_append_dropWhile (p := fun b : UInt8 => decide (b ≠ 32)) (l := t)
        rw [e, List.append_nil] at this
        rw [← this] at ht
        have := List.all_takeWhile (p := fun b : UInt8 => decide (b ≠ 32)) (l := t)
        exact absurd (List.all_eq_true.mp this _ ht) (by decide)
      | cons a x =>
        have := List.head?_dropWhile_not (fun b : UInt8 => decide (b ≠ 32)) t
        rw [e] at this
        simp only [List.head?_cons] at this
        refine ⟨x, ?_⟩
        have : a = 32 := by simpa using this
        rw [this]
    obtain ⟨x, hx⟩ := hd
    have hsplit : t = t.takeWhile (· ≠ 32) ++ 32 :: x := by rw [← hx, List.takeWhile_append_dropWhile]
    have hv : (32 : UInt8) ∉ t.takeWhile (· ≠ 32) := by
      intro g
      have := List.all_takeWhile (p := fun b : UInt8 => decide (b ≠ 32)) (l := t)
      exact absurd (List.all_eq_true.mp this _ g) (by decide)
    have hdrop : ((lit "HTTP" ++ t).dropWhile (· ≠ 32)).drop 1 = x := by
      rw [List.dropWhile_append_of_pos (by decide +kernel), hx]; rfl
    have no : ∀ code ∈ ["200", "301", "302", "303", "307", "308", "404", "400", "499"], startsWith (lit code) x = false := by
      intro code hc
      rw [← Bool.not_eq_true]
      intro g
      obtain ⟨more, rfl⟩ := List.isPrefixOf_iff_prefix.mp g
      exact h code hc ⟨_, more, by rw [List.append_assoc]; exact congrArg (lit "HTTP" ++ ·) hsplit, hv⟩
    dsimp only
    rw [hdrop, no "200" (by simp), no "301" (by simp), no "302" (by simp), no "303" (by simp), no "307" (by simp),
      no "308" (by simp), no "404" (by simp), no "400" (by simp), no "499" (by simp)]
    rfl

theorem linesText_length (ls : List Bytes) : ls.length ≤ (linesText ls).length := by
  induction ls with
  | nil => exact Nat.le_refl _
  | cons l ls ih =>
    unfold linesText at ih ⊢
    rw [List.flatMap_cons, List.length_append, List.length_append, List.length_cons]
    simp only [List.length_cons, List.length_nil]
    omega

theorem respond_cons (first : Bytes) (hs : List Bytes) (bd : Bytes) :
    respond first hs bd = first ++ [13, 10] ++ (linesText hs ++ [13, 10] ++ bd) := by
  unfold respond linesText
  rw [List.flatMap_cons]
  simp only [List.append_assoc]

theorem first_checked (first : Bytes) (hs : List Bytes) (bd : Bytes) (ok : LineOk first) :
    cstr (readLine (respond first hs bd)).1 = first ++ [13, 10] := by
  rw [respond_cons, readLine_line first _ (fun b hb => (ok.free b hb).2) ok.short]
  exact cstr_append first [13, 10] (fun b hb => (ok.free b hb).1)

theorem firstLine_end {code : String} {l : Bytes} (h : FirstLine code l) (r : Bytes) : FirstLine code (l ++ r) := by
  obtain ⟨v, more, rfl, hv⟩ := h
  exact ⟨v, more ++ r, by simp only [List.append_assoc, List.cons_append], hv⟩

/-- The headers of a response without a redirection. -/
theorem headers_respond (url : Bytes) (name : Option Bytes) (code : String) (first : Bytes) (hs : List Bytes) (bd : Bytes) (red : Bool)
    (hc : (code = "200" ∧ red = false) ∨ (code ∈ ["301", "302", "303", "307", "308"] ∧ red = true))
    (h1 : FirstLine code first) (ok : ∀ l ∈ first :: hs, LineOk l)
    (hno : red = false ∨ ∀ l ∈ hs, ∀ v, ¬ Names "Location: " l v) :
    headers url name (respond first hs bd) = (.running, hs.foldl processHeader { url := url, name := name, redirecting := red }, bd) := by
  have hck : checkResponse (first ++ [13, 10]) = (.running, red) := by
    rcases hc with ⟨rfl, rfl⟩ | ⟨hc, rfl⟩
    · exact (checkResponse_spec _).1 (firstLine_end h1 _)
    · exact (checkResponse_spec _).2.1 code hc (firstLine_end h1 _)
  unfold headers
  rw [first_checked first hs bd (ok _ List.mem_cons_self), hck]
  dsimp only
  rw [if_neg (by decide)]
  have hf : (first :: hs).length < (respond first hs bd).length + 1 := by
    have := linesText_length (first :: hs)
    unfold respond
    simp only [List.length_append]
    omega
  show headerLoop _ _ (linesText (first :: hs) ++ [13, 10] ++ bd) = _
  rw [headerLoop_all (first :: hs) bd _ _ hf ok ?_ rfl, List.foldl_cons, processHeader_first _ code first h1]
  rcases hno with rfl | hno
  · exact Or.inl rfl
  · refine Or.inr (fun l hl v hv => ?_)
    rcases List.mem_cons.mp hl with rfl | hl
    · obtain ⟨d, e1, e2⟩ := names_first hv 76 (by decide +kernel)
      rw [firstLine_head h1] at e1
      obtain rfl := Option.some.inj e1
      exact absurd e2 (by decide)
    · exact hno l hl v hv

theorem headerLoop_location (pre post : List Bytes) (loc v bd : Bytes) (hv : Names "Location: " loc v) : ∀ (f : Nat) (h : Head), pre.length < f →
    (∀ l ∈ pre, LineOk l) → LineOk loc → (∀ l ∈ pre, ∀ v, ¬ Names "Location: " l v) → h.redirected = false → h.redirecting = true →
    ∃ h' rest, headerLoop f h (linesText (pre ++ loc :: post) ++ [13, 10] ++ bd) = (.redirect, h', rest) ∧ h'.url = redirect h.url v ∧
      h' = { pre.foldl processHeader h with url := redirect h.url v, redirected := true } := by
  induction pre with
  | nil =>
    intro f h hf _ hok _ hr hg
    obtain ⟨f, rfl⟩ : ∃ g, f = g + 1 := ⟨f - 1, by simp only [List.length_nil] at hf; omega⟩
    have e : linesText ([] ++ loc :: post) ++ [13, 10] ++ bd = loc ++ [13, 10] ++ (linesText post ++ [13, 10] ++ bd) := by
      unfold linesText; rw [List.nil_append, List.flatMap_cons]; simp only [List.append_assoc]
    have hn : ∀ w : String, (lit w).head? = some 67 → cutNoCase (lit w) loc = none := by
      intro w hw
      rw [cutNoCase_none]
      intro v' hv'
      obtain ⟨d, a1, a2⟩ := names_first hv' 67 hw
      obtain ⟨d', b1, b2⟩ := names_first hv 76 (by decide +kernel)
      rw [a1] at b1
      obtain rfl := Option.some.inj b1
      exact absurd (a2.symm.trans b2) (by decide)
    have hp : processHeader h loc = { h with url := redirect h.url v, redirected := true } := by
      unfold processHeader
      rw [hn _ (by decide +kernel), hn _ (by decide +kernel), hn _ (by decide +kernel)]
      dsimp only
      rw [if_pos hg, (cutNoCase_iff _ _ _).2 hv]
    rw [e, headerLoop_line f h loc _ hok, hp, if_pos rfl]
    exact ⟨_, _, rfl, rfl, rfl⟩
  | cons l pre ih =>
    intro f h hf hpre hok hno hr hg
    obtain ⟨f, rfl⟩ : ∃ g, f = g + 1 := ⟨f - 1, by simp only [List.length_cons] at hf; omega⟩
    have e : linesText ((l :: pre) ++ loc :: post) ++ [13, 10] ++ bd = l ++ [13, 10] ++ (linesText (pre ++ loc :: post) ++ [13, 10] ++ bd) := by
      unfold linesText; rw [List.cons_append, List.flatMap_cons]; simp only [List.append_assoc]
    have hk := processHeader_no_location h l (Or.inr (hno l List.mem_cons_self))
    rw [e, headerLoop_line f h l _ (hpre l List.mem_cons_self), if_neg (by rw [hk.1, hr]; exact Bool.false_ne_true)]
    obtain ⟨h', rest, q1, q2, q3⟩ := ih f (processHeader h l) (by simp only [List.length_cons] at hf; omega)
      (fun x hx => hpre x (List.mem_cons_of_mem _ hx)) hok (fun x hx => hno x (List.mem_cons_of_mem _ hx)) (by rw [hk.1, hr])
      (by rw [(processHeader_flags h l).1, hg])
    rw [hk.2] at q2 q3
    exact ⟨h', rest, q1, q2, q3⟩

/-- The header says nothing about the length or the compression, and names no empty file. -/
structure Plain (l : Bytes) : Prop where
  length : ∀ v, ¬ Names "Content-Length: " l v
  gzip : ∀ v, ¬ Names "Content-Encoding: gzip" l v
  name : ∀ v, Names "Content-Disposition: " l v → parseFilename l ≠ some none

theorem processHeader_plain (h : Head) (l : Bytes) (hp : Plain l) :
    (processHeader h l).len = h.len ∧ (processHeader h l).confirmed = h.confirmed ∧ (processHeader h l).gzip = h.gzip ∧
    (processHeader h l).undef = h.undef := by
  unfold processHeader
  rw [(cutNoCase_none _ _).2 hp.length, (cutNoCase_none _ _).2 hp.gzip]
  dsimp only
  split
  · next v e =>
    have := hp.name v ((cutNoCase_iff _ _ _).1 e)
    split
    · exact ⟨rfl, rfl, rfl, rfl⟩
    · next e => exact absurd e this
    · exact ⟨rfl, rfl, rfl, rfl⟩
  · split
    · split <;> exact ⟨rfl, rfl, rfl, rfl⟩
    · exact ⟨rfl, rfl, rfl, rfl⟩

theorem fold_plain (hs : List Bytes) (hp : ∀ l ∈ hs, Plain l) : ∀ h : Head,
    (hs.foldl processHeader h).len = h.len ∧ (hs.foldl processHeader h).confirmed = h.confirmed ∧ (hs.foldl processHeader h).gzip = h.gzip ∧
    (hs.foldl processHeader h).undef = h.undef := by
  induction hs with
  | nil => intro h; exact ⟨rfl, rfl, rfl, rfl⟩
  | cons l hs ih =>
    intro h
    obtain ⟨a1, a2, a3, a4⟩ := ih (fun x hx => hp x (List.mem_cons_of_mem _ hx)) (processHeader h l)
    obtain ⟨b1, b2, b3, b4⟩ := processHeader_plain h l (hp l List.mem_cons_self)
    exact ⟨a1.trans b1, a2.trans b2, a3.trans b3, a4.trans b4⟩

/-- What a list of headers announces: with one header for the length, the number in it, otherwise -1. -/
inductive Announces : List Bytes → Int → Prop where
  | length (pre post : List Bytes) (l v : Bytes) (hl : Names "Content-Length: " l v) (h1 : ∀ x ∈ pre, Plain x) (h2 : ∀ x ∈ post, Plain x) :
      Announces (pre ++ l :: post) (intOf v)
  | nothing (hs : List Bytes) (h : ∀ x ∈ hs, Plain x) : Announces hs (-1)

theorem fold_announces (hs : List Bytes) (n : Int) (ha : Announces hs n) (h : Head) (h0 : h.len = -1) :
    (hs.foldl processHeader h).len = n ∧ (hs.foldl processHeader h).gzip = h.gzip ∧ (hs.foldl processHeader h).undef = h.undef := by
  cases ha with
  | nothing hs hp =>
    obtain ⟨a1, _, a3, a4⟩ := fold_plain hs hp h
    exact ⟨a1.trans h0, a3, a4⟩
  | length pre post l v hl h1 h2 =>
    rw [List.foldl_append, List.foldl_cons]
    obtain ⟨a1, a2, a3, a4⟩ := fold_plain post h2 (processHeader (pre.foldl processHeader h) l)
    obtain ⟨b1, b2, b3, b4⟩ := fold_plain pre h1 h
    have hp : processHeader (pre.foldl processHeader h) l = { pre.foldl processHeader h with len := intOf v, confirmed := true } := by
      unfold processHeader
      rw [(cutNoCase_iff _ _ _).2 hl]
    rw [hp] at a1 a2 a3 a4 ⊢
    exact ⟨a1, a3.trans b3, a4.trans b4⟩

/-! ### The body -/

theorem chunks_spec (sizes : List Nat) : ∀ s : Bytes, (chunks sizes s).flatten = s ∧ ∀ c ∈ chunks sizes s, c ≠ [] := by
  induction sizes with
  | nil =>
    intro s
    cases s with
    | nil => exact ⟨rfl, fun _ h => nomatch h⟩
    | cons b s =>
      have e : chunks [] (b :: s) = [b :: s] := by
        rw [chunks]; exact fun e => nomatch e
      rw [e]
      refine ⟨by simp, fun c hc => ?_⟩
      rw [List.mem_singleton] at hc
      rw [hc]; exact fun e => nomatch e
  | cons n ns ih =>
    intro s
    cases s with
    | nil => exact ⟨rfl, fun _ h => nomatch h⟩
    | cons b s =>
      rw [chunks]
      obtain ⟨i1, i2⟩ := ih ((b :: s).drop (n + 1))
      refine ⟨by rw [List.flatten_cons, i1, List.take_append_drop], fun c hc => ?_⟩
      rcases List.mem_cons.mp hc with rfl | hc
      · exact fun e => nomatch e
      · exact i2 c hc

theorem flatten_pos (cs : List Bytes) (h : ∀ c ∈ cs, c ≠ []) (hne : cs ≠ []) : 0 < cs.flatten.length := by
  cases cs with
  | nil => exact absurd rfl hne
  | cons c cs =>
    rw [List.flatten_cons, List.length_append]
    have := List.length_pos_iff.mpr (h c List.mem_cons_self)
    omega

/-- All the announced bytes arrive, and no more. -/
theorem body_complete (r : Reply) (len : Int) (hw : ∀ i, r.canWrite i = true) : ∀ (todo : List Bytes) (conf : Bool) (got : List Bytes) (w : Nat),
    todo ≠ [] → (∀ c ∈ todo, c ≠ []) → ((w + todo.flatten.length : Nat) : Int) = len → len < 2 ^ 31 → 0 ≤ len →
    body r len false conf got todo w = (.finished, got ++ todo) := by
  intro todo
  induction todo with
  | nil => intro _ _ _ h; exact absurd rfl h
  | cons c cs ih =>
    intro conf got w _ hc hl h31 h0
    have hlc : (c :: cs).flatten.length = c.length + cs.flatten.length := by rw [List.flatten_cons, List.length_append]
    rw [body, hw, Bool.not_true, if_neg Bool.false_ne_true, if_neg (fun e => absurd e.1 Bool.false_ne_true), if_neg (by omega)]
    dsimp only
    rw [Bool.false_and, Bool.or_false]
    by_cases e : cs = []
    · subst e
      rw [if_pos (Or.inl (by simp only [List.flatten_nil, List.length_nil] at hlc; omega))]
    · have hp := flatten_pos cs (fun x hx => hc x (List.mem_cons_of_mem _ hx)) e
      rw [if_neg (fun g => g.elim (fun g => by omega) (fun g => absurd g.2.1 Bool.false_ne_true)),
        ih conf (got ++ [c]) (w + c.length) e (fun x hx => hc x (List.mem_cons_of_mem _ hx)) (by omega) h31 h0]
      rw [List.append_assoc]; rfl

/-- Fewer bytes than announced. -/
theorem body_short (r : Reply) (len : Int) : ∀ (todo : List Bytes) (conf : Bool) (got : List Bytes) (w : Nat),
    ((w + todo.flatten.length : Nat) : Int) < len → len < 2 ^ 31 →
    (body r len false conf got todo w).1 = .failed ∨ (body r len false conf got todo w).1 = .fatalError := by
  intro todo
  induction todo with
  | nil =>
    intro conf got w h _
    rw [body]
    exact Or.inl (by rw [if_neg (fun e => by omega)])
  | cons c cs ih =>
    intro conf got w h h31
    have hlc : (c :: cs).flatten.length = c.length + cs.flatten.length := by rw [List.flatten_cons, List.length_append]
    rw [body]
    by_cases hw : (!r.canWrite got.length) = true
    · rw [if_pos hw]; exact Or.inr rfl
    · rw [if_neg hw, if_neg (fun e => absurd e.1 Bool.false_ne_true), if_neg (by omega)]
      dsimp only
      rw [if_neg (fun g => g.elim (fun g => by omega) (fun g => absurd g.2.1 Bool.false_ne_true))]
      exact ih _ _ _ (by omega) h31

/-- What is known of a body which was taken as complete. -/
theorem body_finished (r : Reply) (len : Int) (gzip : Bool) : ∀ (todo : List Bytes) (conf : Bool) (got : List Bytes) (w : Nat) (ps : List Bytes),
    body r len gzip conf got todo w = (.finished, ps) → w = got.flatten.length →
    ∃ more rest, todo = more ++ rest ∧ ps = got ++ more ∧
      ((ps.flatten.length : Int) = len ∨ (len = -1 ∧ 0 < ps.flatten.length ∧ r.closed = true ∧ rest = []) ∨
        (len = -1 ∧ gzip = true ∧ more ≠ [])) := by
  intro todo
  induction todo with
  | nil =>
    intro conf got w ps h hw
    rw [body] at h
    split at h
    · next c =>
      have := congrArg Prod.snd h
      dsimp only at this
      subst this
      exact ⟨[], [], rfl, (List.append_nil _).symm, Or.inr (Or.inl ⟨c.2.1, hw ▸ c.2.2, c.1, rfl⟩)⟩
    · exact nomatch congrArg Prod.fst h
  | cons c cs ih =>
    intro conf got w ps h hw
    rw [body] at h
    split at h
    · exact nomatch congrArg Prod.fst h
    · split at h
      · exact nomatch congrArg Prod.fst h
      · split at h
        · exact nomatch congrArg Prod.fst h
        · dsimp only at h
          have hl : (got ++ [c]).flatten.length = w + c.length := by
            rw [List.flatten_append, List.length_append, hw]; simp
          split at h
          · next g =>
            have := congrArg Prod.snd h
            dsimp only at this
            subst this
            refine ⟨[c], cs, rfl, rfl, ?_⟩
            rcases g with g | ⟨g1, g2, _⟩
            · exact Or.inl (by rw [hl]; exact g)
            · exact Or.inr (Or.inr ⟨g1, g2, fun e => nomatch e⟩)
          · obtain ⟨more, rest, e1, e2, e3⟩ := ih _ _ _ ps h hl.symm
            refine ⟨c :: more, rest, by rw [e1]; rfl, by rw [e2, List.append_assoc]; rfl, ?_⟩
            rcases e3 with e3 | e3 | e3
            · exact Or.inl e3
            · exact Or.inr (Or.inl e3)
            · exact Or.inr (Or.inr ⟨e3.1, e3.2.1, fun e => nomatch e⟩)

/-! ### One request -/

/-- The request goes out and nothing disturbs it on this side. -/
structure Undisturbed (url : Bytes) (r : Reply) : Prop where
  valid : (target url).isSome = true
  connects : r.connects = true
  sent : r.sendFails = false
  running : r.stopped = false

theorem download_running (url : Bytes) (file name : Option Bytes) (r : Reply) (u : Undisturbed url r) (h : Head) (bd : Bytes)
    (hh : headers url name r.stream = (.running, h, bd)) (hu : h.undef = false) :
    download url file name r =
      ⟨(body r h.len h.gzip h.confirmed [] (chunks r.sizes bd) 0).1, h.url,
       if (body r h.len h.gzip h.confirmed [] (chunks r.sizes bd) 0).1 = .finished then
         some (if h.gzip then (r.unzip (body r h.len h.gzip h.confirmed [] (chunks r.sizes bd) 0).2).out
           else (body r h.len h.gzip h.confirmed [] (chunks r.sizes bd) 0).2.flatten) else none, h.name⟩ := by
  unfold download
  rw [if_neg (by rw [Option.isNone_iff_eq_none]; intro e; have := u.valid; rw [e] at this; exact absurd this Bool.false_ne_true), u.connects, u.sent]
  rw [Bool.not_true, if_neg Bool.false_ne_true, if_neg Bool.false_ne_true]
  dsimp only
  rw [hh]
  dsimp only
  rw [hu, if_neg Bool.false_ne_true, if_neg (by decide), u.running, if_neg Bool.false_ne_true]

/-- A response with the code 200, its headers announcing the length `n` or nothing (-1), without compression. -/
structure Ok (r : Reply) (n : Int) (bd : Bytes) : Prop where
  text : ∃ first hs, r.stream = respond first hs bd ∧ FirstLine "200" first ∧ (∀ l ∈ first :: hs, LineOk l) ∧ Announces hs n

theorem download_ok (url : Bytes) (file name : Option Bytes) (r : Reply) (u : Undisturbed url r) (n : Int) (bd : Bytes) (h : Ok r n bd) :
    ∃ conf nm, download url file name r =
      ⟨(body r n false conf [] (chunks r.sizes bd) 0).1, url,
       if (body r n false conf [] (chunks r.sizes bd) 0).1 = .finished then
         some (body r n false conf [] (chunks r.sizes bd) 0).2.flatten else none, nm⟩ := by
  obtain ⟨first, hs, e1, e2, e3, e4⟩ := h.text
  have hh := headers_respond url name "200" first hs bd false (Or.inl ⟨rfl, rfl⟩) e2 e3 (Or.inl rfl)
  rw [← e1] at hh
  obtain ⟨f1, f2, f3⟩ := fold_announces hs n e4 { url := url, name := name, redirecting := false } rfl
  have furl : (hs.foldl processHeader { url := url, name := name, redirecting := false }).url = url := by
    have key : ∀ (hs : List Bytes) (h : Head), h.redirecting = false → (hs.foldl processHeader h).url = h.url := by
      intro hs
      induction hs with
      | nil => intro h _; rfl
      | cons l hs ih =>
        intro h hr
        rw [List.foldl_cons, ih _ (by rw [(processHeader_flags h l).1, hr]), ((processHeader_flags h l).2 hr).2]
    exact key hs _ rfl
  have d := download_running url file name r u _ bd hh f3
  rw [f1, f2, furl] at d
  exact ⟨_, _, d⟩

/-- C106: when the announced bytes have arrived, the download is complete and the file holds exactly them, in whatever pieces they
came. -/
theorem complete_document (url : Bytes) (file name : Option Bytes) (r : Reply) (u : Undisturbed url r) (bd : Bytes) (h : Ok r bd.length bd)
    (h0 : bd ≠ []) (h31 : bd.length < 2 ^ 31) (hw : ∀ i, r.canWrite i = true) :
    (download url file name r).status = .finished ∧ (download url file name r).file = some bd ∧ (download url file name r).url = url := by
  obtain ⟨conf, nm, d⟩ := download_ok url file name r u _ bd h
  obtain ⟨c1, c2⟩ := chunks_spec r.sizes bd
  have hne : chunks r.sizes bd ≠ [] := fun e => by rw [e] at c1; exact h0 c1.symm
  have hb := body_complete r (bd.length : Int) hw (chunks r.sizes bd) conf [] 0 hne c2 (by rw [c1]; omega) (by omega) (by omega)
  rw [d, hb]
  dsimp only
  rw [if_pos rfl, List.nil_append, c1]
  exact ⟨rfl, rfl, rfl⟩

/-- C106: when fewer bytes arrive than were announced, the download has failed and there is no file. -/
theorem truncated_document (url : Bytes) (file name : Option Bytes) (r : Reply) (u : Undisturbed url r) (n : Int) (bd : Bytes) (h : Ok r n bd)
    (hn : (bd.length : Int) < n) (h31 : n < 2 ^ 31) :
    ((download url file name r).status = .failed ∨ (download url file name r).status = .fatalError) ∧ (download url file name r).file = none := by
  obtain ⟨conf, nm, d⟩ := download_ok url file name r u _ bd h
  obtain ⟨c1, _⟩ := chunks_spec r.sizes bd
  have hb := body_short r n (chunks r.sizes bd) conf [] 0 (by rw [c1]; omega) h31
  rw [d]
  dsimp only
  refine ⟨hb, ?_⟩
  rcases hb with hb | hb
  · rw [hb, if_neg (by decide)]
  · rw [hb, if_neg (by decide)]

/-- C106: whatever arrives, a complete download has left a file with as many bytes as announced, taken from the beginning of
the body; without an announcement, all the bytes which came before the connection was closed. -/
theorem finished_document (url : Bytes) (file name : Option Bytes) (r : Reply) (u : Undisturbed url r) (n : Int) (bd : Bytes) (h : Ok r n bd)
    (hf : (download url file name r).status = .finished) :
    ∃ c, (download url file name r).file = some c ∧ c <+: bd ∧ c ≠ [] ∧ ((c.length : Int) = n ∨ (n = -1 ∧ c = bd ∧ r.closed = true)) := by
  obtain ⟨conf, nm, d⟩ := download_ok url file name r u _ bd h
  rw [d] at hf ⊢
  dsimp only at hf ⊢
  obtain ⟨c1, c2⟩ := chunks_spec r.sizes bd
  generalize hB : body r n false conf [] (chunks r.sizes bd) 0 = B at hf ⊢
  obtain ⟨st, ps⟩ := B
  dsimp only at hf ⊢
  subst hf
  obtain ⟨more, rest, e1, e2, e3⟩ := body_finished r n false (chunks r.sizes bd) conf [] 0 _ hB rfl
  rw [List.nil_append] at e2
  rw [if_pos rfl]
  refine ⟨_, rfl, ?_, ?_, ?_⟩
  · rw [e2, ← c1, e1, List.flatten_append]
    exact List.prefix_append ..
  · intro e
    have hps : ∀ p ∈ ps, p ≠ [] := by
      rw [e2]; exact fun p hp => c2 p (by rw [e1]; exact List.mem_append_left _ hp)
    rcases e3 with e3 | e3 | e3
    · -- the announced length is 0: the first piece is longer
      rw [e] at e3
      have hm : more = [] := by
        rw [← e2]
        cases hq : ps with
        | nil => rfl
        | cons p ps =>
          have := flatten_pos _ hps (by rw [hq]; exact fun e => nomatch e)
          rw [e] at this
          exact absurd this (Nat.lt_irrefl 0)
      have n0 : n = 0 := by rw [← e3]; rfl
      subst n0
      -- the loop ends as complete only after a piece
      have key : ∀ (todo got : List Bytes) (w : Nat) (cf : Bool), (∀ c ∈ todo, c ≠ []) → (body r 0 false cf got todo w).1 ≠ .finished := by
        intro todo
        induction todo with
        | nil =>
          intro got w cf _
          rw [body, if_neg (fun e => absurd e.2.1 (by decide))]
          exact fun e => nomatch e
        | cons c cs ih =>
          intro got w cf hc
          rw [body]
          have := List.length_pos_iff.mpr (hc c List.mem_cons_self)
          split
          · exact fun e => nomatch e
          · split
            · exact fun e => nomatch e
            · split
              · exact fun e => nomatch e
              · dsimp only
                rw [if_neg (fun g => g.elim (fun g => by omega) (fun g => absurd g.2.1 Bool.false_ne_true))]
                exact ih _ _ _ (fun x hx => hc x (List.mem_cons_of_mem _ hx))
      exact key _ _ _ _ c2 (by rw [hB])
    · rw [e] at e3; exact absurd e3.2.1 (Nat.lt_irrefl 0)
    · exact absurd e3.2.1 Bool.false_ne_true
  · rcases e3 with e3 | e3 | e3
    · exact Or.inl e3
    · refine Or.inr ⟨e3.1, ?_, e3.2.2.1⟩
      rw [e3.2.2.2, List.append_nil] at e1
      rw [e2, ← e1, c1]
    · exact absurd e3.2.1 Bool.false_ne_true

/-- C106: a document of which the server says that it is empty is never fetched. -/
theorem empty_document_fails (url : Bytes) (file name : Option Bytes) (r : Reply) (u : Undisturbed url r) (bd : Bytes) (h : Ok r 0 bd) :
    (download url file name r).status ≠ .finished := by
  intro hf
  obtain ⟨c, _, _, h2, h3⟩ := finished_document url file name r u 0 bd h hf
  rcases h3 with h3 | h3
  · exact h2 (List.length_eq_zero_iff.mp (by omega))
  · exact absurd h3.1 (by decide)

theorem download_head (url : Bytes) (file name : Option Bytes) (r : Reply) (u : Undisturbed url r) (st : Status) (h : Head) (rest : Bytes)
    (hh : headers url name r.stream = (st, h, rest)) (hu : h.undef = false) (hs : st ≠ .running) :
    download url file name r = ⟨st, h.url, none, h.name⟩ := by
  unfold download
  rw [if_neg (by rw [Option.isNone_iff_eq_none]; intro e; have := u.valid; rw [e] at this; exact absurd this Bool.false_ne_true),
    u.connects, u.sent]
  rw [Bool.not_true, if_neg Bool.false_ne_true, if_neg Bool.false_ne_true]
  dsimp only
  rw [hh]
  dsimp only
  rw [hu, if_neg Bool.false_ne_true, if_pos hs, u.running, if_neg Bool.false_ne_true]

/-- C106: a redirection leads to the address which the rules of C105 give, and leaves no file. -/
theorem redirected (url : Bytes) (file name : Option Bytes) (r : Reply) (u : Undisturbed url r) (code : String)
    (hc : code ∈ ["301", "302", "303", "307", "308"]) (first loc v bd : Bytes) (pre post : List Bytes)
    (hs : r.stream = respond first (pre ++ loc :: post) bd) (h1 : FirstLine code first) (ok : ∀ l ∈ first :: pre ++ [loc], LineOk l)
    (hv : Names "Location: " loc v) (hno : ∀ l ∈ pre, ∀ v, ¬ Names "Location: " l v) (n : Int) (ha : Announces pre n) :
    (download url file name r).status = .redirect ∧ (download url file name r).url = redirect url v ∧ (download url file name r).file = none := by
  have hck : checkResponse (first ++ [13, 10]) = (.running, true) := (checkResponse_spec _).2.1 code hc (firstLine_end h1 _)
  have hh : ∃ h' rest, headers url name r.stream = (.redirect, h', rest) ∧ h'.url = redirect url v ∧ h'.undef = false := by
    unfold headers
    rw [hs, first_checked first _ bd (ok _ (by simp)), hck]
    dsimp only
    rw [if_neg (by decide)]
    have hf : (first :: pre).length < (respond first (pre ++ loc :: post) bd).length + 1 := by
      have := linesText_length (first :: (pre ++ loc :: post))
      unfold respond
      simp only [List.length_append, List.length_cons] at this ⊢
      omega
    obtain ⟨h', rest, q1, q2, q3⟩ := headerLoop_location (first :: pre) post loc v bd hv _
      { url := url, name := name, redirecting := true } hf (fun l hl => ok l (List.mem_append_left _ hl)) (ok _ (by simp)) (by
        intro l hl v' hv'
        rcases List.mem_cons.mp hl with rfl | hl
        · obtain ⟨d, e1, e2⟩ := names_first hv' 76 (by decide +kernel)
          rw [firstLine_head h1] at e1
          obtain rfl := Option.some.inj e1
          exact absurd e2 (by decide)
        · exact hno l hl v' hv') rfl rfl
    refine ⟨h', rest, q1, q2, ?_⟩
    rw [q3]
    dsimp only
    rw [List.foldl_cons, processHeader_first _ code first h1]
    exact (fold_announces pre n ha _ rfl).2.2
  obtain ⟨h', rest, g1, g2, g3⟩ := hh
  rw [download_head url file name r u .redirect h' rest g1 g3 (by decide)]
  exact ⟨rfl, g2, rfl⟩

/-- C106: what the other codes lead to; there is no file. -/
theorem refused (url : Bytes) (file name : Option Bytes) (r : Reply) (u : Undisturbed url r) (first rest : Bytes) (ok : LineOk first)
    (hs : r.stream = first ++ [13, 10] ++ rest) :
    (FirstLine "404" first → download url file name r = ⟨.notFound, url, none, name⟩) ∧
    (FirstLine "400" first ∨ FirstLine "499" first → download url file name r = ⟨.connectError, url, none, name⟩) ∧
    ((∀ code ∈ ["200", "301", "302", "303", "307", "308", "404", "400", "499"], ¬ FirstLine code (first ++ [13, 10])) →
      download url file name r = ⟨.failed, url, none, name⟩) := by
  have key : ∀ st, checkResponse (first ++ [13, 10]) = (st, false) → st ≠ .running → download url file name r = ⟨st, url, none, name⟩ := by
    intro st hc hst
    refine download_head url file name r u st { url := url, name := name, redirecting := false } r.stream ?_ rfl hst
    unfold headers
    rw [hs, readLine_line first _ (fun b hb => (ok.free b hb).2) ok.short,
      show cstr (first ++ [13, 10]) = first ++ [13, 10] from cstr_append first [13, 10] (fun b hb => (ok.free b hb).1), hc]
    dsimp only
    rw [if_pos hst]
  obtain ⟨_, _, k3, k4⟩ := checkResponse_spec (first ++ [13, 10])
  refine ⟨fun h => key _ (k3 (firstLine_end h _)) (by decide), fun h => ?_, fun h => key _ (checkResponse_other _ h) (by decide)⟩
  rcases h with h | h
  · exact key _ (k4 "400" (by simp) (firstLine_end h _)) (by decide)
  · exact key _ (k4 "499" (by simp) (firstLine_end h _)) (by decide)

theorem headers_not_finished (url : Bytes) (name : Option Bytes) (s : Bytes) : (headers url name s).1 ≠ .finished := by
  have hl : ∀ (f : Nat) (hd : Head) (s : Bytes), (headerLoop f hd s).1 ≠ .finished := by
    intro f
    induction f with
    | zero => intro hd s e; exact nomatch e
    | succ f ih =>
      intro hd s
      rw [headerLoop]
      dsimp only
      split
      · exact fun e => nomatch e
      · split
        · exact fun e => nomatch e
        · split
          · exact fun e => nomatch e
          · exact ih _ _
  have hc : ∀ l, (checkResponse l).1 ≠ .finished := by
    intro l
    unfold checkResponse
    dsimp only
    repeat' split
    all_goals exact fun e => nomatch e
  unfold headers
  dsimp only
  split
  · exact hc _
  · exact hl _ _ _

/-- C106: whatever happens, a request is complete only if its response begins with the code 200 or that of a redirection, and
then there is a file; otherwise there is none. -/
theorem finished_only (url : Bytes) (name : Option Bytes) (r : Reply) :
    ((download url none name r).status = .finished →
      (∃ code ∈ ["200", "301", "302", "303", "307", "308"], FirstLine code (cstr (readLine r.stream).1)) ∧
      (target url).isSome = true ∧ r.stopped = false) ∧
    ((download url none name r).status = .finished ↔ (download url none name r).file ≠ none) := by
  constructor
  · intro h
    have hcode : checkResponse (cstr (readLine r.stream).1) ≠ (.failed, false) → ∀ c2, checkResponse (cstr (readLine r.stream).1) = (.running, c2) →
        ∃ code ∈ ["200", "301", "302", "303", "307", "308"], FirstLine code (cstr (readLine r.stream).1) := by
      intro hne c2 hc
      refine Classical.byContradiction (fun hno => ?_)
      by_cases h404 : FirstLine "404" (cstr (readLine r.stream).1)
      · rw [(checkResponse_spec _).2.2.1 h404] at hc; exact nomatch congrArg Prod.fst hc
      · by_cases h400 : FirstLine "400" (cstr (readLine r.stream).1)
        · rw [(checkResponse_spec _).2.2.2 "400" (by simp) h400] at hc; exact nomatch congrArg Prod.fst hc
        · by_cases h499 : FirstLine "499" (cstr (readLine r.stream).1)
          · rw [(checkResponse_spec _).2.2.2 "499" (by simp) h499] at hc; exact nomatch congrArg Prod.fst hc
          · refine hne (checkResponse_other _ ?_)
            intro code hcd hf
            simp only [List.mem_cons, List.not_mem_nil, or_false] at hcd
            rcases hcd with e | e | e | e | e | e | e | e | e
            · exact hno ⟨code, by simp [e], hf⟩
            · exact hno ⟨code, by simp [e], hf⟩
            · exact hno ⟨code, by simp [e], hf⟩
            · exact hno ⟨code, by simp [e], hf⟩
            · exact hno ⟨code, by simp [e], hf⟩
            · exact hno ⟨code, by simp [e], hf⟩
            · exact h404 (e ▸ hf)
            · exact h400 (e ▸ hf)
            · exact h499 (e ▸ hf)
    unfold download at h
    split at h
    · exact nomatch h
    · next ht =>
      split at h
      · exact nomatch h
      · split at h
        · exact nomatch h
        · dsimp only at h
          split at h
          · exact nomatch h
          · split at h
            · next hs =>
              dsimp only at h
              split at h
              · exact nomatch h
              · exact absurd h (headers_not_finished _ _ _)
            · next hs =>
              dsimp only at h
              split at h
              · exact nomatch h
              · next hst =>
                refine ⟨?_, ?_, by rw [← Bool.not_eq_true]; exact hst⟩
                · have hrun : (checkResponse (cstr (readLine r.stream).1)).1 = .running := by
                    refine Classical.byContradiction (fun hne => ?_)
                    apply hs
                    unfold headers
                    dsimp only
                    rw [if_pos hne]
                    exact hne
                  refine hcode (fun e => ?_) (checkResponse (cstr (readLine r.stream).1)).2 (Prod.ext hrun rfl)
                  rw [e] at hrun; exact nomatch hrun
                · cases e : target url with
                  | some _ => rfl
                  | none => rw [e] at ht; exact absurd rfl ht
  · unfold download
    split
    · exact ⟨fun e => (nomatch e), fun e => absurd rfl e⟩
    · split
      · exact ⟨fun e => (nomatch e), fun e => absurd rfl e⟩
      · split
        · exact ⟨fun e => (nomatch e), fun e => absurd rfl e⟩
        · dsimp only
          split
          · exact ⟨fun e => (nomatch e), fun e => absurd rfl e⟩
          · split
            · next hs =>
              refine ⟨fun e => ?_, fun e => absurd rfl e⟩
              dsimp only at e
              split at e
              · exact nomatch e
              · exact absurd e (headers_not_finished _ _ _)
            · dsimp only
              constructor
              · intro e
                rw [if_pos e]
                exact fun e => nomatch e
              · intro e
                refine Classical.byContradiction (fun hne => ?_)
                rw [if_neg hne] at e
                exact e rfl

/-! ### What is taken for complete though it is not -/

theorem body_closed (r : Reply) (gzip : Bool) (hw : ∀ i, r.canWrite i = true) (hc : r.closed = true)
    (hz : gzip = true → ∀ ps, ∃ o, r.unzip ps = .more o) : ∀ (todo got : List Bytes) (w : Nat),
    w = got.flatten.length → 0 < w + todo.flatten.length → w + todo.flatten.length < 2 ^ 31 →
    body r (-1) gzip false got todo w = (.finished, got ++ todo) := by
  intro todo
  induction todo with
  | nil =>
    intro got w hg h0 _
    rw [body, if_pos ⟨hc, rfl, by simp only [List.flatten_nil, List.length_nil] at h0; omega⟩, List.append_nil]
  | cons c cs ih =>
    intro got w hg h0 h31
    have hlc : (c :: cs).flatten.length = c.length + cs.flatten.length := by rw [List.flatten_cons, List.length_append]
    rw [body, hw, Bool.not_true, if_neg Bool.false_ne_true]
    have hne : ¬ (gzip = true ∧ r.unzip (got ++ [c]) = .error) := by
      rintro ⟨g, e⟩
      obtain ⟨o, ho⟩ := hz g (got ++ [c])
      rw [ho] at e
      exact nomatch e
    have hd : (false || (gzip && (r.unzip (got ++ [c])).isDone)) = false := by
      cases hg' : gzip with
      | false => rfl
      | true =>
        obtain ⟨o, ho⟩ := hz hg' (got ++ [c])
        rw [ho]; rfl
    rw [if_neg hne, if_neg (by omega)]
    dsimp only
    rw [hd, if_neg (fun g => g.elim (fun g => by omega) (fun g => absurd g.2.2 Bool.false_ne_true)),
      ih (got ++ [c]) (w + c.length) (by rw [List.flatten_append, List.length_append, hg]; simp) (by omega) (by omega), List.append_assoc]
    rfl

/-- C106, refuted: the page which comes with a redirection without a new address is taken for the document. -/
theorem redirection_page_taken (url : Bytes) (file name : Option Bytes) (r : Reply) (u : Undisturbed url r) (code : String)
    (hc : code ∈ ["301", "302", "303", "307", "308"]) (first bd : Bytes) (hs : List Bytes) (n : Nat) (hn : n = bd.length)
    (ht : r.stream = respond first hs bd) (h1 : FirstLine code first) (ok : ∀ l ∈ first :: hs, LineOk l)
    (hno : ∀ l ∈ hs, ∀ v, ¬ Names "Location: " l v) (ha : Announces hs n) (h0 : bd ≠ []) (h31 : bd.length < 2 ^ 31)
    (hw : ∀ i, r.canWrite i = true) :
    (download url file name r).status = .finished ∧ (download url file name r).file = some bd := by
  have hh := headers_respond url name code first hs bd true (Or.inr ⟨hc, rfl⟩) h1 ok (Or.inr hno)
  rw [← ht] at hh
  obtain ⟨f1, f2, f3⟩ := fold_announces hs n ha { url := url, name := name, redirecting := true } rfl
  have d := download_running url file name r u _ bd hh f3
  obtain ⟨c1, c2⟩ := chunks_spec r.sizes bd
  have hne : chunks r.sizes bd ≠ [] := fun e => by rw [e] at c1; exact h0 c1.symm
  rw [d, f1, f2]
  dsimp only
  rw [body_complete r n hw (chunks r.sizes bd) _ [] 0 hne c2 (by rw [c1]; omega) (by omega) (by omega)]
  dsimp only
  rw [if_pos rfl, List.nil_append, c1, if_neg Bool.false_ne_true]
  exact ⟨rfl, rfl⟩

/-- C106, refuted: without an announced length a compressed document is taken for complete when the connection ends, even if the
compressed data are not: the file holds what could be decompressed until then. -/
theorem truncated_gzip_taken (url : Bytes) (file name : Option Bytes) (r : Reply) (u : Undisturbed url r) (first gz bd : Bytes)
    (pre post : List Bytes) (ht : r.stream = respond first (pre ++ gz :: post) bd) (h1 : FirstLine "200" first)
    (ok : ∀ l ∈ first :: (pre ++ gz :: post), LineOk l) (v : Bytes) (hg : Names "Content-Encoding: gzip" gz v)
    (hp1 : ∀ l ∈ pre, Plain l) (hp2 : ∀ l ∈ post, Plain l) (h0 : bd ≠ []) (h31 : bd.length < 2 ^ 31) (hw : ∀ i, r.canWrite i = true)
    (hcl : r.closed = true) (hz : ∀ ps, ∃ o, r.unzip ps = .more o) :
    (download url file name r).status = .finished ∧ (download url file name r).file = some (r.unzip (chunks r.sizes bd)).out := by
  have hh := headers_respond url name "200" first _ bd false (Or.inl ⟨rfl, rfl⟩) h1 ok (Or.inl rfl)
  rw [← ht] at hh
  generalize hH : (pre ++ gz :: post).foldl processHeader { url := url, name := name, redirecting := false } = H at hh
  have hf : H.len = -1 ∧ H.confirmed = false ∧ H.gzip = true ∧ H.undef = false := by
    rw [← hH, List.foldl_append, List.foldl_cons]
    obtain ⟨b1, b2, b3, b4⟩ := fold_plain pre hp1 { url := url, name := name, redirecting := false }
    have hl : ∀ v, ¬ Names "Content-Length: " gz v := by
      rintro v' ⟨x, e, hx⟩
      obtain ⟨y, e', hy⟩ := hg
      have k1 := same_length hx
      have k2 := same_length hy
      have e3 : x.take 9 = y.take 9 := by
        have a1 : (lit "Content-Length: ").length = 16 := by decide +kernel
        have a2 : (lit "Content-Encoding: gzip").length = 22 := by decide +kernel
        have t1 := congrArg (List.take 9) e
        have t2 := congrArg (List.take 9) e'
        rw [List.take_append_of_le_length (by omega)] at t1 t2
        exact t1.symm.trans t2
      have m1 := congrArg (List.take 9) hx
      have m2 := congrArg (List.take 9) hy
      rw [← List.map_take] at m1 m2
      rw [e3, m2] at m1
      exact absurd m1 (by decide +kernel)
    have hp : processHeader (pre.foldl processHeader { url := url, name := name, redirecting := false }) gz =
        { pre.foldl processHeader { url := url, name := name, redirecting := false } with gzip := true } := by
      unfold processHeader
      rw [(cutNoCase_none _ _).2 hl, (cutNoCase_iff _ _ _).2 hg]
    obtain ⟨a1, a2, a3, a4⟩ := fold_plain post hp2 (processHeader (pre.foldl processHeader { url := url, name := name, redirecting := false }) gz)
    rw [hp] at a1 a2 a3 a4 ⊢
    exact ⟨a1.trans b1, a2.trans b2, a3, a4.trans b4⟩
  obtain ⟨f1, f2, f3, f4⟩ := hf
  have d := download_running url file name r u H bd hh f4
  obtain ⟨c1, c2⟩ := chunks_spec r.sizes bd
  have hpos : 0 < bd.length := List.length_pos_iff.mpr h0
  rw [d, f1, f2, f3, body_closed r true hw hcl (fun _ => hz) (chunks r.sizes bd) [] 0 rfl (by rw [c1]; omega) (by rw [c1]; omega)]
  dsimp only
  rw [if_pos rfl, List.nil_append, if_pos rfl]
  exact ⟨rfl, rfl⟩

theorem body_plain_closed (r : Reply) (hw : ∀ i, r.canWrite i = true) (hc : r.closed = true) : ∀ (todo got : List Bytes) (conf : Bool) (w : Nat),
    0 < w + todo.flatten.length → w + todo.flatten.length < 2 ^ 31 → body r (-1) false conf got todo w = (.finished, got ++ todo) := by
  intro todo
  induction todo with
  | nil =>
    intro got conf w h0 _
    rw [body, if_pos ⟨hc, rfl, by simp only [List.flatten_nil, List.length_nil] at h0; omega⟩, List.append_nil]
  | cons c cs ih =>
    intro got conf w h0 h31
    have hlc : (c :: cs).flatten.length = c.length + cs.flatten.length := by rw [List.flatten_cons, List.length_append]
    rw [body, hw, Bool.not_true, if_neg Bool.false_ne_true, if_neg (fun g => absurd g.1 Bool.false_ne_true), if_neg (by omega)]
    dsimp only
    rw [if_neg (fun g => g.elim (fun g => by omega) (fun g => absurd g.2.1 Bool.false_ne_true)),
      ih (got ++ [c]) _ (w + c.length) (by omega) (by omega), List.append_assoc]
    rfl

/-- C106, refuted: without an announced length whatever part of a document has arrived when the server closes the connection is taken
for the whole. -/
theorem unannounced_part_taken (url : Bytes) (file name : Option Bytes) (r : Reply) (u : Undisturbed url r) (part : Bytes) (h : Ok r (-1) part)
    (h0 : part ≠ []) (h31 : part.length < 2 ^ 31) (hw : ∀ i, r.canWrite i = true) (hcl : r.closed = true) :
    (download url file name r).status = .finished ∧ (download url file name r).file = some part := by
  obtain ⟨conf, nm, d⟩ := download_ok url file name r u _ part h
  obtain ⟨c1, _⟩ := chunks_spec r.sizes part
  have hpos : 0 < part.length := List.length_pos_iff.mpr h0
  rw [d, body_plain_closed r hw hcl (chunks r.sizes part) [] conf 0 (by rw [c1]; omega) (by rw [c1]; omega)]
  dsimp only
  rw [if_pos rfl, List.nil_append, c1]
  exact ⟨rfl, rfl⟩

/-! ### Compressed documents and names -/

theorem body_unzip (r : Reply) (len : Int) (hw : ∀ i, r.canWrite i = true) (hz : ∀ ps, r.unzip ps ≠ .error) :
    ∀ (todo : List Bytes) (conf : Bool) (got : List Bytes) (w : Nat),
    todo ≠ [] → (∀ c ∈ todo, c ≠ []) → ((w + todo.flatten.length : Nat) : Int) = len → len < 2 ^ 31 →
    body r len true conf got todo w = (.finished, got ++ todo) := by
  intro todo
  induction todo with
  | nil => intro _ _ _ h; exact absurd rfl h
  | cons c cs ih =>
    intro conf got w _ hne hlen h31
    have hlc : (c :: cs).flatten.length = c.length + cs.flatten.length := by rw [List.flatten_cons, List.length_append]
    rw [body, hw, Bool.not_true, if_neg Bool.false_ne_true, if_neg (fun g => hz _ g.2), if_neg (by omega)]
    dsimp only
    by_cases hcs : cs = []
    · subst hcs
      rw [if_pos (Or.inl (by rw [← hlen, hlc]; rfl))]
    · have hpos := flatten_pos cs (fun x hx => hne x (List.mem_cons_of_mem _ hx)) hcs
      rw [if_neg (fun g => g.elim (fun g => by omega) (fun g => by omega)),
        ih _ (got ++ [c]) (w + c.length) hcs (fun x hx => hne x (List.mem_cons_of_mem _ hx)) (by omega) h31, List.append_assoc]
      rfl

/-- C106: when the announced bytes of a compressed document have arrived and zlib accepts them, the file holds what they decompress
to, in whatever pieces they came. The headers for the length and for the compression may come in any order. -/
theorem compressed_document (url : Bytes) (file name : Option Bytes) (r : Reply) (u : Undisturbed url r) (first bd : Bytes) (hs : List Bytes)
    (ht : r.stream = respond first hs bd) (h1 : FirstLine "200" first) (ok : ∀ l ∈ first :: hs, LineOk l)
    (hlen : ∃ v, (∃ l ∈ hs, Names "Content-Length: " l v) ∧ intOf v = bd.length ∧ ∀ l ∈ hs, ∀ v', Names "Content-Length: " l v' → v' = v)
    (hgz : ∃ v, ∃ l ∈ hs, Names "Content-Encoding: gzip" l v) (hn : ∀ l ∈ hs, ∀ v, ¬ Names "Content-Disposition: " l v)
    (h0 : bd ≠ []) (h31 : bd.length < 2 ^ 31) (hw : ∀ i, r.canWrite i = true) (hz : ∀ ps, r.unzip ps ≠ .error) :
    (download url file name r).status = .finished ∧ (download url file name r).file = some (r.unzip (chunks r.sizes bd)).out := by
  have hh := headers_respond url name "200" first hs bd false (Or.inl ⟨rfl, rfl⟩) h1 ok (Or.inl rfl)
  rw [← ht] at hh
  obtain ⟨v, ⟨l, hl, hv⟩, hi, hall⟩ := hlen
  obtain ⟨v2, l2, hl2, hv2⟩ := hgz
  have key : ∀ (hs : List Bytes) (h : Head), h.undef = false → (∀ l ∈ hs, ∀ v', Names "Content-Length: " l v' → v' = v) →
      (∀ l ∈ hs, ∀ v, ¬ Names "Content-Disposition: " l v) →
      (hs.foldl processHeader h).undef = false ∧
      (h.len = intOf v ∨ (∃ l ∈ hs, Names "Content-Length: " l v) → (hs.foldl processHeader h).len = intOf v) ∧
      (h.gzip = true ∨ (∃ l ∈ hs, Names "Content-Encoding: gzip" l v2) → (hs.foldl processHeader h).gzip = true) := by
    intro hs
    induction hs with
    | nil =>
      intro h hu _ _
      refine ⟨hu, fun e => e.elim id (fun e => ?_), fun e => e.elim id (fun e => ?_)⟩ <;> obtain ⟨_, hm, _⟩ := e <;> exact nomatch hm
    | cons l hs ih =>
      intro h hu ha hd
      rw [List.foldl_cons]
      have step : (processHeader h l).undef = false ∧
          (h.len = intOf v ∨ Names "Content-Length: " l v → (processHeader h l).len = intOf v) ∧
          (h.gzip = true ∨ Names "Content-Encoding: gzip" l v2 → (processHeader h l).gzip = true) := by
        unfold processHeader
        cases e1 : cutNoCase (lit "Content-Length: ") l with
        | some w =>
          obtain rfl := ha l List.mem_cons_self w ((cutNoCase_iff _ _ _).1 e1)
          refine ⟨hu, fun _ => rfl, fun e => e.elim id (fun e => ?_)⟩
          exfalso
          have k := (cutNoCase_iff _ _ _).1 e1
          obtain ⟨x, q1, q2⟩ := k
          obtain ⟨y, q3, q4⟩ := e
          have a1 : (lit "Content-Length: ").length = 16 := by decide +kernel
          have a2 : (lit "Content-Encoding: gzip").length = 22 := by decide +kernel
          have k1 := same_length q2
          have k2 := same_length q4
          have t1 := congrArg (List.take 9) q1
          have t2 := congrArg (List.take 9) q3
          rw [List.take_append_of_le_length (by omega)] at t1 t2
          have m1 := congrArg (List.take 9) q2
          have m2 := congrArg (List.take 9) q4
          rw [← List.map_take, ← t1] at m1
          rw [← List.map_take, ← t2, m1] at m2
          exact absurd m2 (by decide +kernel)
        | none =>
          have n1 := (cutNoCase_none _ _).1 e1
          dsimp only
          cases e2 : cutNoCase (lit "Content-Encoding: gzip") l with
          | some w => exact ⟨hu, fun e => e.elim id (fun e => absurd e (n1 _)), fun _ => rfl⟩
          | none =>
            have n2 := (cutNoCase_none _ _).1 e2
            dsimp only
            rw [(cutNoCase_none _ _).2 (hd l List.mem_cons_self)]
            dsimp only
            split
            · split
              · exact ⟨hu, fun e => e.elim id (fun e => absurd e (n1 _)), fun e => e.elim id (fun e => absurd e (n2 _))⟩
              · exact ⟨hu, fun e => e.elim id (fun e => absurd e (n1 _)), fun e => e.elim id (fun e => absurd e (n2 _))⟩
            · exact ⟨hu, fun e => e.elim id (fun e => absurd e (n1 _)), fun e => e.elim id (fun e => absurd e (n2 _))⟩
      obtain ⟨s1, s2, s3⟩ := step
      obtain ⟨r1, r2, r3⟩ := ih (processHeader h l) s1 (fun l hl => ha l (List.mem_cons_of_mem _ hl)) (fun l hl => hd l (List.mem_cons_of_mem _ hl))
      refine ⟨r1, fun e => r2 ?_, fun e => r3 ?_⟩
      · rcases e with e | ⟨l', hm, e⟩
        · exact Or.inl (s2 (Or.inl e))
        · rcases List.mem_cons.1 hm with rfl | hm
          · exact Or.inl (s2 (Or.inr e))
          · exact Or.inr ⟨l', hm, e⟩
      · rcases e with e | ⟨l', hm, e⟩
        · exact Or.inl (s3 (Or.inl e))
        · rcases List.mem_cons.1 hm with rfl | hm
          · exact Or.inl (s3 (Or.inr e))
          · exact Or.inr ⟨l', hm, e⟩
  obtain ⟨k1, k2, k3⟩ := key hs { url := url, name := name, redirecting := false } rfl hall hn
  have d := download_running url file name r u _ bd hh k1
  obtain ⟨c1, c2⟩ := chunks_spec r.sizes bd
  have hne : chunks r.sizes bd ≠ [] := fun e => by rw [e] at c1; exact h0 c1.symm
  rw [d, k2 (Or.inr ⟨l, hl, hv⟩), k3 (Or.inr ⟨l2, hl2, hv2⟩), hi,
    body_unzip r bd.length hw hz (chunks r.sizes bd) _ [] 0 hne c2 (by rw [c1]; omega) (by omega)]
  dsimp only
  rw [if_pos rfl, if_pos rfl, List.nil_append]
  exact ⟨rfl, rfl⟩

/-- C106: the file gets the name which the last header with a name gives. -/
theorem document_name (url : Bytes) (file name : Option Bytes) (r : Reply) (u : Undisturbed url r) (first l n bd : Bytes) (pre post : List Bytes)
    (ht : r.stream = respond first (pre ++ l :: post) bd) (h1 : FirstLine "200" first) (ok : ∀ x ∈ first :: (pre ++ l :: post), LineOk x)
    (v : Bytes) (hl : Names "Content-Disposition: " l v) (hn : parseFilename l = some (some n))
    (hpre : ∀ x ∈ pre, ∀ v, ¬ Names "Content-Disposition: " x v) (hpost : ∀ x ∈ post, ∀ v, ¬ Names "Content-Disposition: " x v) :
    (download url file name r).name = some n := by
  have hh := headers_respond url name "200" first _ bd false (Or.inl ⟨rfl, rfl⟩) h1 ok (Or.inl rfl)
  rw [← ht] at hh
  have keep : ∀ (hs : List Bytes) (h : Head), (∀ x ∈ hs, ∀ v, ¬ Names "Content-Disposition: " x v) →
      (hs.foldl processHeader h).undef = h.undef ∧ (hs.foldl processHeader h).name = h.name := by
    intro hs
    induction hs with
    | nil => intro h _; exact ⟨rfl, rfl⟩
    | cons x hs ih =>
      intro h ha
      rw [List.foldl_cons]
      have : (processHeader h x).undef = h.undef ∧ (processHeader h x).name = h.name := by
        unfold processHeader
        cases cutNoCase (lit "Content-Length: ") x with
        | some w => exact ⟨rfl, rfl⟩
        | none =>
          dsimp only
          cases cutNoCase (lit "Content-Encoding: gzip") x with
          | some w => exact ⟨rfl, rfl⟩
          | none =>
            dsimp only
            rw [(cutNoCase_none _ _).2 (ha x List.mem_cons_self)]
            dsimp only
            split
            · split <;> exact ⟨rfl, rfl⟩
            · exact ⟨rfl, rfl⟩
      obtain ⟨a, b⟩ := ih (processHeader h x) (fun y hy => ha y (List.mem_cons_of_mem _ hy))
      exact ⟨a.trans this.1, b.trans this.2⟩
  have hfold : ((pre ++ l :: post).foldl processHeader { url := url, name := name, redirecting := false }).undef = false ∧
      ((pre ++ l :: post).foldl processHeader { url := url, name := name, redirecting := false }).name = some n := by
    rw [List.foldl_append, List.foldl_cons]
    obtain ⟨p1, _⟩ := keep pre { url := url, name := name, redirecting := false } hpre
    generalize pre.foldl processHeader { url := url, name := name, redirecting := false } = H at p1
    have other : ∀ w : String, w = "Content-Length: " ∨ w = "Content-Encoding: gzip" → cutNoCase (lit w) l = none := by
      intro w hw'
      refine (cutNoCase_none _ _).2 (fun v' hv' => ?_)
      obtain ⟨x, q1, q2⟩ := hv'
      obtain ⟨y, q3, q4⟩ := hl
      have a2 : (lit "Content-Disposition: ").length = 21 := by decide +kernel
      have a1 : 9 ≤ (lit w).length := by rcases hw' with rfl | rfl <;> decide +kernel
      have k1 := same_length q2
      have k2 := same_length q4
      have t1 := congrArg (List.take 9) q1
      have t2 := congrArg (List.take 9) q3
      rw [List.take_append_of_le_length (by omega)] at t1 t2
      have m1 := congrArg (List.take 9) q2
      have m2 := congrArg (List.take 9) q4
      rw [← List.map_take, ← t1] at m1
      rw [← List.map_take, ← t2, m1] at m2
      rcases hw' with rfl | rfl <;> exact absurd m2 (by decide +kernel)
    have hp : processHeader H l = { H with name := some n } := by
      unfold processHeader
      rw [other _ (Or.inl rfl), other _ (Or.inr rfl), (cutNoCase_iff _ _ _).2 hl]
      dsimp only
      rw [hn]
    obtain ⟨b1, b2⟩ := keep post (processHeader H l) hpost
    rw [b1, b2, hp]
    exact ⟨p1, rfl⟩
  rw [download_running url file name r u _ bd hh hfold.1]
  exact hfold.2

/-- C106, refuted: if the request cannot be sent, a buffer which was never written is read. -/
theorem unsent_request_undefined (url : Bytes) (file name : Option Bytes) (r : Reply) (hv : (target url).isSome = true) (hc : r.connects = true)
    (hs : r.sendFails = true) : (download url file name r).status = .undefined := by
  unfold download
  rw [if_neg (by rw [Option.isNone_iff_eq_none]; intro e; rw [e] at hv; exact absurd hv Bool.false_ne_true), hc, hs, Bool.not_true,
    if_neg Bool.false_ne_true, if_pos rfl]

/-! ### Redirections and retries -/

/-- C106: one attempt makes at most six requests. -/
theorem follow_count (net : Nat → Reply) : ∀ (k n : Nat) (url : Bytes) (file name : Option Bytes),
    n ≤ (follow net k n url file name).2 ∧ (follow net k n url file name).2 ≤ n + k := by
  intro k
  induction k with
  | zero => intro n _ _ _; exact ⟨Nat.le_refl _, Nat.le_refl _⟩
  | succ k ih =>
    intro n url file name
    rw [follow]
    split
    · obtain ⟨h1, h2⟩ := ih (n + 1) (download url file name (net n)).url (download url file name (net n)).file (download url file name (net n)).name
      exact ⟨by omega, by omega⟩
    · exact ⟨by dsimp only; omega, by dsimp only; omega⟩

/-- C106: up to five redirections in a row are followed: the result is that of the first request which is not redirected.
`u`, `f`, `m` are the addresses, files and names before the requests. -/
theorem follow_reaches (net : Nat → Reply) (u : Nat → Bytes) (f m : Nat → Option Bytes) : ∀ (j k n i : Nat), j < k →
    (∀ a < j, download (u (i + a)) (f (i + a)) (m (i + a)) (net (n + a)) = ⟨.redirect, u (i + a + 1), f (i + a + 1), m (i + a + 1)⟩) →
    (download (u (i + j)) (f (i + j)) (m (i + j)) (net (n + j))).status ≠ .redirect →
    follow net k n (u i) (f i) (m i) = (download (u (i + j)) (f (i + j)) (m (i + j)) (net (n + j)), n + j + 1) := by
  intro j
  induction j with
  | zero =>
    intro k n i hk _ hs
    obtain ⟨k, rfl⟩ : ∃ q, k = q + 1 := ⟨k - 1, by omega⟩
    rw [follow]
    rw [Nat.add_zero, Nat.add_zero] at hs ⊢
    rw [if_neg hs]
    rfl
  | succ j ih =>
    intro k n i hk ha hs
    obtain ⟨k, rfl⟩ : ∃ q, k = q + 1 := ⟨k - 1, by omega⟩
    rw [follow]
    have h0 := ha 0 (by omega)
    rw [Nat.add_zero, Nat.add_zero] at h0
    rw [h0, if_pos rfl]
    dsimp only
    rw [ih k (n + 1) (i + 1) (by omega) ?_ ?_, show i + 1 + j = i + (j + 1) by omega, show n + 1 + j = n + (j + 1) by omega]
    · intro a hlt
      have := ha (a + 1) (by omega)
      rw [show i + 1 + a = i + (a + 1) by omega, show n + 1 + a = n + (a + 1) by omega]
      exact this
    · rw [show i + 1 + j = i + (j + 1) by omega, show n + 1 + j = n + (j + 1) by omega]
      exact hs

/-- C106: an endless chain of redirections is given up after six requests. -/
theorem follow_endless (net : Nat → Reply) (h : ∀ n u f m, (download u f m (net n)).status = .redirect) : ∀ (k n : Nat) (url : Bytes)
    (file name : Option Bytes), (follow net k n url file name).2 = n + k ∧ (follow net k n url file name).1.status = .failed := by
  intro k
  induction k with
  | zero => intro n _ _ _; exact ⟨rfl, rfl⟩
  | succ k ih =>
    intro n url file name
    rw [follow]
    rw [if_pos (h n url file name)]
    obtain ⟨h1, h2⟩ := ih (n + 1) (download url file name (net n)).url (download url file name (net n)).file (download url file name (net n)).name
    exact ⟨by omega, h2⟩

/-- Without a redirection an attempt is one request. -/
theorem follow_single (net : Nat → Reply) (k n : Nat) (url : Bytes) (file name : Option Bytes)
    (h : (download url file name (net n)).status ≠ .redirect) :
    follow net (k + 1) n url file name = (download url file name (net n), n + 1) := by
  rw [follow]
  rw [if_neg h]

theorem follow_file (net : Nat → Reply) : ∀ (k n : Nat) (url : Bytes) (name : Option Bytes),
    ((follow net k n url none name).1.status = .finished ↔ (follow net k n url none name).1.file ≠ none) ∧
    (follow net k n url none name).1.status ≠ .redirect := by
  intro k
  induction k with
  | zero => intro n _ _; exact ⟨⟨fun e => (nomatch e), fun e => absurd rfl e⟩, fun e => nomatch e⟩
  | succ k ih =>
    intro n url name
    rw [follow]
    split
    · next hr =>
      have : (download url none name (net n)).file = none := by
        refine Classical.byContradiction (fun hne => ?_)
        have := (finished_only url name (net n)).2.2 hne
        rw [hr] at this
        exact nomatch this
      rw [this]
      exact ih (n + 1) _ _
    · next hr => exact ⟨(finished_only url name (net n)).2, hr⟩

theorem headers_not_retry (url : Bytes) (name : Option Bytes) (s : Bytes) : (headers url name s).1 ≠ .retry := by
  have hl : ∀ (f : Nat) (hd : Head) (s : Bytes), (headerLoop f hd s).1 ≠ .retry := by
    intro f
    induction f with
    | zero => intro hd s e; exact nomatch e
    | succ f ih =>
      intro hd s
      rw [headerLoop]
      dsimp only
      split
      · exact fun e => nomatch e
      · split
        · exact fun e => nomatch e
        · split
          · exact fun e => nomatch e
          · exact ih _ _
  have hc : ∀ l, (checkResponse l).1 ≠ .retry := by
    intro l
    unfold checkResponse
    dsimp only
    repeat' split
    all_goals exact fun e => nomatch e
  unfold headers
  dsimp only
  split
  · exact hc _
  · exact hl _ _ _

theorem body_not_retry (r : Reply) (len : Int) (gzip : Bool) : ∀ (todo got : List Bytes) (conf : Bool) (w : Nat),
    (body r len gzip conf got todo w).1 ≠ .retry := by
  intro todo
  induction todo with
  | nil =>
    intro got conf w
    rw [body]
    dsimp only
    split <;> exact fun e => (nomatch e)
  | cons c cs ih =>
    intro got conf w
    rw [body]
    split
    · exact fun e => nomatch e
    · split
      · exact fun e => nomatch e
      · split
        · exact fun e => nomatch e
        · dsimp only
          split
          · exact fun e => nomatch e
          · exact ih _ _ _

theorem download_not_retry (url : Bytes) (file name : Option Bytes) (r : Reply) : (download url file name r).status ≠ .retry := by
  unfold download
  split
  · exact fun e => nomatch e
  · split
    · exact fun e => nomatch e
    · split
      · exact fun e => nomatch e
      · dsimp only
        split
        · exact fun e => nomatch e
        · split
          · dsimp only
            split
            · exact fun e => nomatch e
            · exact headers_not_retry _ _ _
          · dsimp only
            split
            · exact fun e => nomatch e
            · exact body_not_retry _ _ _ _ _ _ _

theorem follow_not_retry (net : Nat → Reply) : ∀ (k n : Nat) (url : Bytes) (file name : Option Bytes),
    (follow net k n url file name).1.status ≠ .retry := by
  intro k
  induction k with
  | zero => intro n _ _ _ e; exact nomatch e
  | succ k ih =>
    intro n url file name
    rw [follow]
    split
    · exact ih _ _ _ _
    · exact download_not_retry _ _ _ _

theorem attempts_spec (net : Nat → Reply) (stops : Stops) : ∀ (f i n dl cn : Nat) (last : Result), last.file = none →
    last.status ≠ .finished → last.status ≠ .retry → dl + cn ≤ f + 1 →
    ((attempts net stops f i n dl cn last).1.status = .finished → (attempts net stops f i n dl cn last).1.file ≠ none) ∧
    ((attempts net stops f i n dl cn last).1.file ≠ none →
      (attempts net stops f i n dl cn last).1.status = .finished ∨ (attempts net stops f i n dl cn last).1.status = .retry) ∧
    (attempts net stops f i n dl cn last).2 ≤ n + 6 * (dl + cn - 1) := by
  intro f
  induction f with
  | zero =>
    intro i n dl cn last h1 h2 h3 _
    exact ⟨fun e => absurd e h2, fun e => absurd h1 e, Nat.le_add_right _ _⟩
  | succ f ih =>
    intro i n dl cn last h1 h2 h3 hk
    rw [attempts]
    split
    · exact ⟨fun e => absurd e h2, fun e => absurd h1 e, by dsimp only; omega⟩
    · next hstop =>
      have hdl : dl ≠ 0 := fun e => hstop (Or.inr (Or.inl e))
      have hcn : cn ≠ 0 := fun e => hstop (Or.inr (Or.inr e))
      rw [h1]
      have hc := follow_count net 6 n last.url none last.name
      have hf := follow_file net 6 n last.url last.name
      have hret := follow_not_retry net 6 n last.url none last.name
      generalize hR : follow net 6 n last.url none last.name = R at hc hf hret
      dsimp only
      split
      · next hu => exact ⟨fun e => hf.1.1 e, fun e => Or.inl (hf.1.2 e), by omega⟩
      · split
        · exact ⟨fun e => (nomatch e), fun _ => Or.inr rfl, by dsimp only; omega⟩
        · split
          · exact ⟨fun e => hf.1.1 e, fun e => Or.inl (hf.1.2 e), by omega⟩
          · next hnot =>
            have hnf : R.1.status ≠ .finished := fun e => hnot (Or.inl e)
            have hfile : R.1.file = none := Classical.byContradiction (fun hne => hnf (hf.1.2 hne))
            split
            · obtain ⟨a1, a2, a3⟩ := ih (i + 1) R.2 dl (cn - 1) R.1 hfile hnf hret (by omega)
              exact ⟨a1, a2, by omega⟩
            · obtain ⟨a1, a2, a3⟩ := ih (i + 1) R.2 (dl - 1) cn R.1 hfile hnf hret (by omega)
              exact ⟨a1, a2, by omega⟩

theorem retries_pos (u : Int) (b : Bool) : 0 < (retries u b).1 ∧ 0 < (retries u b).2 := by
  unfold retries
  dsimp only
  cases b
  · exact ⟨Nat.one_pos, Nat.one_pos⟩
  · rw [if_pos rfl]
    dsimp only
    split <;> split <;> constructor <;> omega

/-- C106: a download which is complete has left a file, a failed one none; if there is a file, it is complete or the download was
stopped when it was. The number of requests is limited whatever the servers answer. -/
theorem run_file (net : Nat → Reply) (stops : Stops) (u : Int) (b : Bool) (url : Bytes) :
    ((run net stops u b url).1.status = .finished → (run net stops u b url).1.file ≠ none) ∧
    ((run net stops u b url).1.status = .failed → (run net stops u b url).1.file = none) ∧
    (run net stops u b url).1.status ∈ [.finished, .failed, .retry, .undefined] ∧
    (run net stops u b url).2 ≤ 6 * ((retries u b).1 + (retries u b).2 - 1) := by
  have h := attempts_spec net stops ((retries u b).1 + (retries u b).2) 0 0 (retries u b).1 (retries u b).2
    ⟨.failed, UrlText.urlEncode url, none, none⟩ rfl (fun e => nomatch e) (fun e => nomatch e) (by omega)
  unfold run
  dsimp only
  generalize attempts net stops ((retries u b).1 + (retries u b).2) 0 0 (retries u b).1 (retries u b).2
    ⟨.failed, UrlText.urlEncode url, none, none⟩ = R at h
  obtain ⟨⟨st, ur, fi, nm⟩, n⟩ := R
  dsimp only at h ⊢
  obtain ⟨h1, h2, h3⟩ := h
  refine ⟨?_, ?_, ?_, by omega⟩
  · intro e
    apply h1
    unfold final at e
    split at e
    · exact nomatch e
    · split at e
      · exact nomatch e
      · exact e
  · intro e
    refine Classical.byContradiction (fun hne => ?_)
    rcases h2 hne with rfl | rfl <;> exact nomatch e
  · cases st <;> decide

/-! The turns of a download which is not stopped. -/

/-- The result of turn `t` and the number of requests made until then. -/
def turn (net : Nat → Reply) (url : Bytes) : Nat → Result × Nat
  | 0 => (⟨.failed, UrlText.urlEncode url, none, none⟩, 0)
  | t + 1 => follow net 6 (turn net url t).2 (turn net url t).1.url (turn net url t).1.file (turn net url t).1.name

/-- How many of the first `t` turns could not connect. -/
def unconnected (net : Nat → Reply) (url : Bytes) : Nat → Nat
  | 0 => 0
  | t + 1 => unconnected net url t + if (turn net url (t + 1)).1.status = .connectError then 1 else 0

/-- After turn `t` there is no reason for a further one: the result is final, or `cn` turns could not connect, or `dl` other
turns have failed. -/
def Over (net : Nat → Reply) (url : Bytes) (dl cn t : Nat) : Prop :=
  (turn net url t).1.status ∈ [.finished, .fatalError, .notFound, .undefined] ∨ cn ≤ unconnected net url t ∨ dl ≤ t - unconnected net url t

theorem unconnected_le (net : Nat → Reply) (url : Bytes) (t : Nat) : unconnected net url t ≤ t := by
  induction t with
  | zero => exact Nat.le_refl _
  | succ t ih => rw [unconnected]; split <;> omega

theorem attempts_fuel (net : Nat → Reply) (stops : Stops) : ∀ (f g i n dl cn : Nat) (last : Result), dl + cn ≤ f + 1 → dl + cn ≤ g + 1 →
    attempts net stops f i n dl cn last = attempts net stops g i n dl cn last := by
  have h0 : ∀ (g i n dl cn : Nat) (last : Result), dl = 0 ∨ cn = 0 → attempts net stops g i n dl cn last = (last, n) := by
    intro g i n dl cn last h
    cases g with
    | zero => rfl
    | succ g => rw [attempts, if_pos (Or.inr h)]
  intro f
  induction f with
  | zero =>
    intro g i n dl cn last hf hg
    rw [h0 g i n dl cn last (by omega)]
    rfl
  | succ f ih =>
    intro g i n dl cn last hf hg
    by_cases hz : dl = 0 ∨ cn = 0
    · rw [h0 _ _ _ _ _ _ hz, h0 _ _ _ _ _ _ hz]
    · obtain ⟨g, rfl⟩ : ∃ q, g = q + 1 := ⟨g - 1, by omega⟩
      rw [attempts, attempts]
      dsimp only
      rw [ih g (i + 1) _ dl (cn - 1) _ (by omega) (by omega), ih g (i + 1) _ (dl - 1) cn _ (by omega) (by omega)]

theorem attempts_step (net : Nat → Reply) (stops : Stops) (url : Bytes) (dl cn i f : Nat) (s1 : stops.before i = false)
    (s2 : stops.after i = false) (h1 : unconnected net url i < cn) (h2 : i - unconnected net url i < dl) :
    attempts net stops (f + 1) i (turn net url i).2 (dl - (i - unconnected net url i)) (cn - unconnected net url i) (turn net url i).1 =
      if (turn net url (i + 1)).1.status ∈ [.finished, .fatalError, .notFound, .undefined] then turn net url (i + 1)
      else attempts net stops f (i + 1) (turn net url (i + 1)).2 (dl - (i + 1 - unconnected net url (i + 1)))
        (cn - unconnected net url (i + 1)) (turn net url (i + 1)).1 := by
  have hle := unconnected_le net url i
  have hno : ¬ (stops.before i = true ∨ dl - (i - unconnected net url i) = 0 ∨ cn - unconnected net url i = 0) := by
    rw [s1]
    rintro (e | e | e)
    · exact absurd e Bool.false_ne_true
    · omega
    · omega
  rw [attempts, if_neg hno, s2]
  have hu : unconnected net url (i + 1) = unconnected net url i + if (turn net url (i + 1)).1.status = .connectError then 1 else 0 := rfl
  have ht : follow net 6 (turn net url i).2 (turn net url i).1.url (turn net url i).1.file (turn net url i).1.name = turn net url (i + 1) := rfl
  rw [ht]
  generalize turn net url (i + 1) = R at hu
  dsimp only
  by_cases e1 : R.1.status = .undefined
  · rw [if_pos e1, if_pos (by rw [e1]; decide)]
  · rw [if_neg e1, if_neg Bool.false_ne_true]
    by_cases e2 : R.1.status = .finished ∨ R.1.status = .fatalError ∨ R.1.status = .notFound
    · rw [if_pos e2, if_pos (by rcases e2 with e | e | e <;> rw [e] <;> decide)]
    · rw [if_neg e2]
      have : ¬ R.1.status ∈ [Status.finished, .fatalError, .notFound, .undefined] := by
        intro hm
        simp only [List.mem_cons, List.not_mem_nil, or_false] at hm
        rcases hm with e | e | e | e
        · exact e2 (Or.inl e)
        · exact e2 (Or.inr (Or.inl e))
        · exact e2 (Or.inr (Or.inr e))
        · exact e1 e
      rw [if_neg this]
      by_cases e3 : R.1.status = .connectError
      · rw [if_pos e3] at hu ⊢
        rw [hu, show i + 1 - (unconnected net url i + 1) = i - unconnected net url i by omega,
          show cn - (unconnected net url i + 1) = cn - unconnected net url i - 1 by omega]
      · rw [if_neg e3] at hu ⊢
        rw [hu, show dl - (i + 1 - (unconnected net url i + 0)) = dl - (i - unconnected net url i) - 1 by omega]
        rfl

theorem attempts_turns (net : Nat → Reply) (stops : Stops) (url : Bytes) (dl cn t : Nat)
    (hs : ∀ a < t, stops.before a = false ∧ stops.after a = false) (hn : ∀ a, 0 < a → a < t → ¬ Over net url dl cn a)
    (ho : Over net url dl cn t) : ∀ (d i f : Nat), i + d + 1 = t → d + 1 ≤ f → unconnected net url i < cn →
    i - unconnected net url i < dl →
    attempts net stops f i (turn net url i).2 (dl - (i - unconnected net url i)) (cn - unconnected net url i) (turn net url i).1 =
      turn net url t := by
  intro d
  induction d with
  | zero =>
    intro i f hi hf h1 h2
    obtain ⟨f, rfl⟩ : ∃ q, f = q + 1 := ⟨f - 1, by omega⟩
    obtain ⟨s1, s2⟩ := hs i (by omega)
    rw [attempts_step net stops url dl cn i f s1 s2 h1 h2]
    obtain rfl : t = i + 1 := by omega
    rcases ho with h | h
    · rw [if_pos h]
    · split
      · rfl
      · cases f with
        | zero => rfl
        | succ f =>
          rw [attempts, if_pos (Or.inr (by omega))]
  | succ d ih =>
    intro i f hi hf h1 h2
    obtain ⟨f, rfl⟩ : ∃ q, f = q + 1 := ⟨f - 1, by omega⟩
    obtain ⟨s1, s2⟩ := hs i (by omega)
    rw [attempts_step net stops url dl cn i f s1 s2 h1 h2]
    have hno := hn (i + 1) (by omega) (by omega)
    rw [if_neg (fun h => hno (Or.inl h))]
    exact ih (i + 1) f (by omega) (by omega) (Nat.lt_of_not_le (fun h => hno (Or.inr (Or.inl h))))
      (Nat.lt_of_not_le (fun h => hno (Or.inr (Or.inr h))))

/-- C106: a download which is not stopped ends with the result of the first turn after which it is over: it is complete, refused
for good, or the retries are used up, those for connections and those for everything else separately. -/
theorem run_turns (net : Nat → Reply) (stops : Stops) (u : Int) (b : Bool) (url : Bytes) (t : Nat) (ht : 0 < t)
    (hs : ∀ a < t, stops.before a = false ∧ stops.after a = false)
    (hn : ∀ a, 0 < a → a < t → ¬ Over net url (retries u b).1 (retries u b).2 a) (ho : Over net url (retries u b).1 (retries u b).2 t) :
    run net stops u b url = ({ (turn net url t).1 with status := final (turn net url t).1.status }, (turn net url t).2) := by
  obtain ⟨p1, p2⟩ := retries_pos u b
  have h := attempts_turns net stops url _ _ t hs hn ho (t - 1) 0 ((retries u b).1 + (retries u b).2 + t) (by omega) (by omega) p2 p1
  rw [attempts_fuel net stops _ ((retries u b).1 + (retries u b).2) _ _ _ _ _ (by omega) (by omega)] at h
  unfold run
  dsimp only
  rw [show unconnected net url 0 = 0 from rfl] at h
  rw [Nat.sub_zero, Nat.sub_zero] at h
  rw [show turn net url 0 = (⟨.failed, UrlText.urlEncode url, none, none⟩, 0) from rfl] at h
  dsimp only at h
  rw [h]

/-- C106: every download which is not stopped is over after some turn: `run_turns` describes all of them. -/
theorem over_exists (net : Nat → Reply) (url : Bytes) (dl cn : Nat) (h1 : 0 < dl) (h2 : 0 < cn) :
    ∃ t, 0 < t ∧ t < dl + cn ∧ Over net url dl cn t ∧ ∀ a, 0 < a → a < t → ¬ Over net url dl cn a := by
  have key : ∀ n, (∃ t, 0 < t ∧ t ≤ n ∧ Over net url dl cn t ∧ ∀ a, 0 < a → a < t → ¬ Over net url dl cn a) ∨
      ∀ a, 0 < a → a ≤ n → ¬ Over net url dl cn a := by
    intro n
    induction n with
    | zero => exact Or.inr (fun a h1 h2 => by omega)
    | succ n ih =>
      rcases ih with ⟨t, a1, a2, a3, a4⟩ | h
      · exact Or.inl ⟨t, a1, by omega, a3, a4⟩
      · by_cases ho : Over net url dl cn (n + 1)
        · exact Or.inl ⟨n + 1, by omega, Nat.le_refl _, ho, fun a g1 g2 => h a g1 (by omega)⟩
        · refine Or.inr (fun a g1 g2 => ?_)
          by_cases ha : a = n + 1
          · rw [ha]; exact ho
          · exact h a g1 (by omega)
  rcases key (dl + cn - 1) with ⟨t, a1, a2, a3, a4⟩ | h
  · exact ⟨t, a1, by omega, a3, a4⟩
  · exfalso
    apply h (dl + cn - 1) (by omega) (Nat.le_refl _)
    have := unconnected_le net url (dl + cn - 1)
    right
    omega

theorem follow_unreachable (net : Nat → Reply) (h : ∀ n, (net n).connects = false) (url : Bytes) (hu : (target url).isSome = true) (k n : Nat) (file name : Option Bytes) :
    follow net (k + 1) n url file name = (⟨.connectError, url, file, name⟩, n + 1) := by
  have hd : download url file name (net n) = ⟨.connectError, url, file, name⟩ := by
    unfold download
    rw [if_neg (by rw [Option.isNone_iff_eq_none]; intro e; rw [e] at hu; exact nomatch hu), if_pos (by rw [h n]; rfl)]
  unfold follow
  rw [hd]
  rfl

theorem attempts_unreachable (net : Nat → Reply) (stops : Stops) (h : ∀ n, (net n).connects = false) (url : Bytes) (hu : (target url).isSome = true)
    (hb : ∀ i, stops.before i = false) (ha : ∀ i, stops.after i = false) (dl : Nat) (hd : 0 < dl) : ∀ (cn f i n : Nat) (st : Status) (file name : Option Bytes), 0 < cn → cn ≤ f →
    attempts net stops f i n dl cn ⟨st, url, file, name⟩ = (⟨.connectError, url, file, name⟩, n + cn) := by
  intro cn
  induction cn with
  | zero => intro f i n st file name h0 _; omega
  | succ cn ih =>
    intro f i n st file name _ hf
    obtain ⟨g, rfl⟩ : ∃ g, f = g + 1 := ⟨f - 1, by omega⟩
    have hno : ¬ (stops.before i = true ∨ dl = 0 ∨ cn + 1 = 0) := by
      rw [hb i]
      rintro (e | e | e)
      · exact absurd e Bool.false_ne_true
      · omega
      · omega
    rw [attempts, if_neg hno]
    dsimp only
    rw [follow_unreachable net h url hu]
    rw [if_neg (fun e => nomatch e), if_neg (by rw [ha i]; exact Bool.false_ne_true), if_neg (by rintro (e | e | e) <;> exact nomatch e), if_pos (show (Status.connectError) = .connectError from rfl), Nat.add_sub_cancel]
    by_cases hc : cn = 0
    · subst hc
      cases g with
      | zero => rfl
      | succ g =>
        rw [attempts, if_pos (Or.inr (Or.inr rfl))]
    · rw [ih g (i + 1) (n + 1) .connectError file name (by omega) (by omega)]
      congr 1
      omega

/-- C106: a server which cannot be reached is tried as often as the retries for connections say, and the download fails without a file. -/
theorem unreachable (net : Nat → Reply) (stops : Stops) (h : ∀ n, (net n).connects = false) (url : Bytes) (hu : (target (UrlText.urlEncode url)).isSome = true)
    (hb : ∀ i, stops.before i = false) (ha : ∀ i, stops.after i = false) (u : Int) (b : Bool) :
    (run net stops u b url).1.status = .failed ∧ (run net stops u b url).1.file = none ∧ (run net stops u b url).2 = (retries u b).2 := by
  obtain ⟨p1, p2⟩ := retries_pos u b
  unfold run
  dsimp only
  rw [attempts_unreachable net stops h _ hu hb ha _ p1 _ _ _ _ _ _ _ p2 (by omega)]
  exact ⟨rfl, rfl, by omega⟩

/-- C106: a download which is stopped before its first request fails without one. -/
theorem stopped_at_once (net : Nat → Reply) (stops : Stops) (u : Int) (b : Bool) (url : Bytes) (h : stops.before 0 = true) :
    (run net stops u b url).1.status = .failed ∧ (run net stops u b url).1.file = none ∧ (run net stops u b url).2 = 0 := by
  obtain ⟨p1, p2⟩ := retries_pos u b
  unfold run
  dsimp only
  obtain ⟨q, hq⟩ : ∃ q, (retries u b).1 + (retries u b).2 = q + 1 := ⟨(retries u b).1 + (retries u b).2 - 1, by omega⟩
  rw [hq, attempts, if_pos (Or.inl h)]
  exact ⟨rfl, rfl, rfl⟩

/-- C106, refuted: a download which was complete when it was stopped, or the downloads were paused, is to be repeated, though its file
is there. -/
theorem complete_but_repeated (net : Nat → Reply) (stops : Stops) (u : Int) (b : Bool) (url : Bytes) (h0 : stops.before 0 = false)
    (h1 : stops.after 0 = true) (hf : (turn net url 1).1.status = .finished) :
    (run net stops u b url).1.status = .retry ∧ (run net stops u b url).1.file ≠ none := by
  obtain ⟨p1, p2⟩ := retries_pos u b
  have hff := (follow_file net 6 0 (UrlText.urlEncode url) none).1.1
  have e : follow net 6 0 (UrlText.urlEncode url) none none = turn net url 1 := rfl
  unfold run
  dsimp only
  obtain ⟨q, hq⟩ : ∃ q, (retries u b).1 + (retries u b).2 = q + 1 := ⟨(retries u b).1 + (retries u b).2 - 1, by omega⟩
  have hno : ¬ (stops.before 0 = true ∨ (retries u b).1 = 0 ∨ (retries u b).2 = 0) := by
    rw [h0]
    rintro (e | e | e)
    · exact absurd e Bool.false_ne_true
    · omega
    · omega
  rw [hq, attempts, if_neg hno, e]
  dsimp only
  rw [if_neg (by rw [hf]; exact fun e => nomatch e), if_pos h1]
  rw [e] at hff
  exact ⟨rfl, hff hf⟩

/-- C106: the retries: as the option says but at least one, and at least ten for connections; without retries one each. -/
theorem retries_spec (u : Int) :
    retries u false = (1, 1) ∧ (0 < u → (((retries u true).1 : Nat) : Int) = u) ∧ (u ≤ 0 → (retries u true).1 = 1) ∧
    (retries u true).2 = max 10 (retries u true).1 := by
  refine ⟨rfl, fun h => ?_, fun h => ?_, ?_⟩
  · show (((if 0 < u then u.toNat else 1 : Nat)) : Int) = u
    rw [if_pos h]; omega
  · show (if 0 < u then u.toNat else 1) = 1
    rw [if_neg (by omega)]
  · show (if 10 < (if 0 < u then u.toNat else 1) then _ else 10) = max 10 (if 0 < u then u.toNat else 1)
    generalize (if 0 < u then u.toNat else 1) = d
    split <;> omega

/-! ### Cases -/

/-- A response with the first line, the headers and the body, which arrives in pieces of three bytes and then the rest. -/
def reply (first : String) (hs : List String) (bd : String) (unzip : List Bytes → Gz := fun _ => .error) : Reply where
  connects := true
  sendFails := false
  stream := respond (lit first) (hs.map lit) (lit bd)
  sizes := [2, 2]
  closed := true
  unzip := unzip
  canWrite := fun _ => true
  stopped := false

def site : Bytes := lit "http://example.org/a.nzb"

example : (target (UrlText.urlEncode site)).isSome = true := by decide +kernel

theorem lineOk_of (l : Bytes) (h1 : l ≠ []) (h2 : l.head? ≠ some 13) (h3 : ∀ b ∈ l, b ≠ 0 ∧ b ≠ 10)
    (h4 : ∀ b, l.getLast? = some b → FeedFilter.isBlank b = false) (h5 : l.length ≤ 10000) : LineOk l := by
  constructor <;> assumption

theorem plain_of (l : Bytes) (h1 : cutNoCase (lit "Content-Length: ") l = none) (h2 : cutNoCase (lit "Content-Encoding: gzip") l = none)
    (h3 : cutNoCase (lit "Content-Disposition: ") l = none) : Plain l where
  length := (cutNoCase_none _ _).1 h1
  gzip := (cutNoCase_none _ _).1 h2
  name := fun v hv => absurd hv ((cutNoCase_none _ _).1 h3 v)

def good : Reply := reply "HTTP/1.1 200 OK" ["Server: x", "content-length: 11", "Connection: close"] "hello world"

theorem site_undisturbed (first : String) (hs : List String) (bd : String) (z : List Bytes → Gz) : Undisturbed site (reply first hs bd z) :=
  ⟨by decide +kernel, rfl, rfl, rfl⟩

theorem lines_ok (ls : List Bytes) (h : ∀ l ∈ ls, l ≠ [] ∧ l.head? ≠ some 13 ∧ (∀ b ∈ l, b ≠ 0 ∧ b ≠ 10) ∧
    (l.getLast?.all fun b => !FeedFilter.isBlank b) = true ∧ l.length ≤ 10000) : ∀ l ∈ ls, LineOk l := by
  intro l hl
  obtain ⟨a, b, c, d, e⟩ := h l hl
  refine ⟨a, b, c, ?_, e⟩
  intro x hx
  rw [hx] at d
  simpa using d

theorem plains (ls : List Bytes) (h : ∀ l ∈ ls, cutNoCase (lit "Content-Length: ") l = none ∧ cutNoCase (lit "Content-Encoding: gzip") l = none ∧
    cutNoCase (lit "Content-Disposition: ") l = none) : ∀ l ∈ ls, Plain l :=
  fun l hl => plain_of l (h l hl).1 (h l hl).2.1 (h l hl).2.2

theorem good_announces : Announces (["Server: x", "content-length: 11", "Connection: close"].map lit) 11 := by
  have h := Announces.length [lit "Server: x"] [lit "Connection: close"] (lit "content-length: 11") (lit "11")
    ((cutNoCase_iff _ _ _).1 (by decide +kernel)) (plains _ (by decide +kernel)) (plains _ (by decide +kernel))
  rwa [show intOf (lit "11") = 11 by decide +kernel] at h

theorem good_text (bd : String) : Ok (reply "HTTP/1.1 200 OK" ["Server: x", "content-length: 11", "Connection: close"] bd) 11 (lit bd) :=
  ⟨⟨lit "HTTP/1.1 200 OK", ["Server: x", "content-length: 11", "Connection: close"].map lit, rfl,
    ⟨lit "/1.1", lit " OK", by decide +kernel, by decide +kernel⟩, lines_ok _ (by decide +kernel), good_announces⟩⟩

example : (download site none none good).status = .finished ∧ (download site none none good).file = some (lit "hello world") ∧
    (download site none none good).url = site :=
  complete_document site none none good (site_undisturbed _ _ _ _) _
    (by rw [show ((lit "hello world").length : Int) = 11 by decide +kernel]; exact good_text _) (by decide +kernel) (by decide +kernel) (fun _ => rfl)

example (file name : Option Bytes) : (download site file name
    (reply "HTTP/1.1 200 OK" ["Server: x", "content-length: 11", "Connection: close"] "hello wor")).file = none :=
  (truncated_document site file name _ (site_undisturbed _ _ _ _) 11 (lit "hello wor") (good_text _) (by decide +kernel) (by decide +kernel)).2

def moved (hs : List String) (bd : String) : Reply := reply "HTTP/1.0 302 Found" hs bd

example : (download site none none (moved ["Server: x", "Location: b.nzb"] "moved")).status = .redirect ∧
    (download site none none (moved ["Server: x", "Location: b.nzb"] "moved")).url = lit "http://example.org/b.nzb" := by
  have h := redirected site none none (moved ["Server: x", "Location: b.nzb"] "moved") (site_undisturbed _ _ _ _) "302" (by decide)
    (lit "HTTP/1.0 302 Found") (lit "Location: b.nzb") (lit "b.nzb") (lit "moved") [lit "Server: x"] [] rfl
    ⟨lit "/1.0", lit " Found", by decide +kernel, by decide +kernel⟩ (lines_ok _ (by decide +kernel))
    ((cutNoCase_iff _ _ _).1 (by decide +kernel))
    (fun l hl => (cutNoCase_none _ _).1 (by rw [List.mem_singleton.1 hl]; decide +kernel)) (-1) (.nothing _ (plains _ (by decide +kernel)))
  exact ⟨h.1, h.2.1.trans (by decide +kernel)⟩

/-- The page of a redirection without an address. -/
example : (download site none none (moved ["content-length: 5"] "moved")).status = .finished ∧
    (download site none none (moved ["content-length: 5"] "moved")).file = some (lit "moved") :=
  redirection_page_taken site none none _ (site_undisturbed _ _ _ _) "302" (by decide) (lit "HTTP/1.0 302 Found") (lit "moved")
    [lit "content-length: 5"] 5 (by decide +kernel) rfl
    ⟨lit "/1.0", lit " Found", by decide +kernel, by decide +kernel⟩ (lines_ok _ (by decide +kernel))
    (fun l hl => (cutNoCase_none _ _).1 (by rw [List.mem_singleton.1 hl]; decide +kernel))
    (by
      have h := Announces.length [] [] (lit "content-length: 5") (lit "5") ((cutNoCase_iff _ _ _).1 (by decide +kernel))
        (fun _ h => nomatch h) (fun _ h => nomatch h)
      rwa [show intOf (lit "5") = 5 by decide +kernel] at h)
    (by decide +kernel) (by decide +kernel) (fun _ => rfl)

/-- A part of a document whose length was not announced. -/
example : (download site none none (reply "HTTP/1.1 200 OK" [] "hello wor")).file = some (lit "hello wor") :=
  (unannounced_part_taken site none none _ (site_undisturbed _ _ _ _) (lit "hello wor")
    ⟨⟨lit "HTTP/1.1 200 OK", [], rfl, ⟨lit "/1.1", lit " OK", by decide +kernel, by decide +kernel⟩, lines_ok _ (by decide +kernel),
      .nothing _ (fun _ h => nomatch h)⟩⟩ (by decide +kernel) (by decide +kernel) (fun _ => rfl) rfl).2

/-- A part of compressed data. -/
example : (download site none none (reply "HTTP/1.1 200 OK" ["Content-Encoding: gzip"] "xyz" (fun _ => .more (lit "he")))).file = some (lit "he") :=
  (truncated_gzip_taken site none none _ (site_undisturbed _ _ _ _) (lit "HTTP/1.1 200 OK") (lit "Content-Encoding: gzip") (lit "xyz") [] []
    rfl ⟨lit "/1.1", lit " OK", by decide +kernel, by decide +kernel⟩ (lines_ok _ (by decide +kernel)) []
    ((cutNoCase_iff _ _ _).1 (by decide +kernel)) (fun _ h => nomatch h) (fun _ h => nomatch h) (by decide +kernel) (by decide +kernel)
    (fun _ => rfl) rfl (fun _ => ⟨_, rfl⟩)).2

/-- Compressed data with their length and a name. -/
def packed : Reply := reply "HTTP/1.1 200 OK" ["Content-Encoding: gzip", "Content-Length: 4", "Content-Disposition: attachment; filename=\"b.nzb\""] "xyzt"
  (fun _ => .more (lit "hello"))
def packed2 : Reply := reply "HTTP/1.1 200 OK" ["Content-Encoding: gzip", "Content-Length: 4"] "xyzt" (fun _ => .more (lit "hello"))

example : (download site none none packed).name = some (lit "b.nzb") :=
  document_name site none none packed (site_undisturbed _ _ _ _) (lit "HTTP/1.1 200 OK")
    (lit "Content-Disposition: attachment; filename=\"b.nzb\"") (lit "b.nzb") (lit "xyzt") [lit "Content-Encoding: gzip", lit "Content-Length: 4"] []
    rfl ⟨lit "/1.1", lit " OK", by decide +kernel, by decide +kernel⟩ (lines_ok _ (by decide +kernel))
    (lit "attachment; filename=\"b.nzb\"") ((cutNoCase_iff _ _ _).1 (by decide +kernel)) (by decide +kernel)
    (fun x hx => (cutNoCase_none _ _).1 (by
      rcases List.mem_cons.1 hx with rfl | hx
      · decide +kernel
      · rw [List.mem_singleton.1 hx]; decide +kernel)) (fun _ h => nomatch h)

example : (download site none none packed2).file = some (lit "hello") :=
  (compressed_document site none none packed2 (site_undisturbed _ _ _ _) (lit "HTTP/1.1 200 OK") (lit "xyzt")
    [lit "Content-Encoding: gzip", lit "Content-Length: 4"] rfl ⟨lit "/1.1", lit " OK", by decide +kernel, by decide +kernel⟩
    (lines_ok _ (by decide +kernel))
    ⟨lit "4", ⟨_, List.mem_cons_of_mem _ List.mem_cons_self, (cutNoCase_iff _ _ _).1 (by decide +kernel)⟩, by decide +kernel, by
      intro l hl v' hv'
      have hv' := (cutNoCase_iff _ _ _).2 hv'
      rcases List.mem_cons.1 hl with rfl | hl
      · exact absurd (hv'.symm.trans (show _ = none by decide +kernel)) (fun e => nomatch e)
      · obtain rfl := List.mem_singleton.1 hl
        exact Option.some.inj (hv'.symm.trans (by decide +kernel))⟩
    ⟨[], _, List.mem_cons_self, (cutNoCase_iff _ _ _).1 (by decide +kernel)⟩
    (fun l hl => (cutNoCase_none _ _).1 (by
      rcases List.mem_cons.1 hl with rfl | hl
      · decide +kernel
      · rw [List.mem_singleton.1 hl]; decide +kernel))
    (by decide +kernel) (by decide +kernel) (fun _ => rfl) (fun _ h => nomatch h)).2

def missing : Reply := reply "HTTP/1.1 404 Not Found" [] ""
def broken : Reply := reply "HTTP/1.1 500 Sorry" [] ""
def dead : Reply := { broken with connects := false }
def never : Stops := ⟨fun _ => false, fun _ => false⟩

example : download site none none missing = ⟨.notFound, site, none, none⟩ :=
  (refused site none none missing (site_undisturbed _ _ _ _) (lit "HTTP/1.1 404 Not Found") [13, 10]
    (lines_ok [_] (by decide +kernel) _ List.mem_cons_self) (by decide +kernel)).1 ⟨lit "/1.1", lit " Not Found", by decide +kernel, by decide +kernel⟩

/-- Two redirections and then the document: three requests. -/
example : run (fun n => if n < 2 then moved ["Location: b.nzb"] "" else good) never 3 true site =
    (⟨.finished, lit "http://example.org/b.nzb", some (lit "hello world"), none⟩, 3) := by decide +kernel
/-- Redirections without end: six requests in each of the three turns. -/
example : (run (fun _ => moved ["Location: b.nzb"] "") never 3 true site).2 = 18 ∧
    (run (fun _ => moved ["Location: b.nzb"] "") never 3 true site).1.status = .failed := by decide +kernel
/-- A failure, two failures to connect, and the document. -/
example : run (fun n => if n = 0 then broken else if n < 3 then dead else good) never 2 true site =
    (⟨.finished, site, some (lit "hello world"), none⟩, 4) := by decide +kernel
/-- The two turns are used up. -/
example : (run (fun n => if n = 0 then broken else if n < 3 then dead else if n = 3 then broken else good) never 2 true site).1.status = .failed ∧
    (run (fun n => if n = 0 then broken else if n < 3 then dead else if n = 3 then broken else good) never 2 true site).2 = 4 := by decide +kernel
/-- What is not there is not asked for again. -/
example : (run (fun _ => missing) never 5 true site).2 = 1 := by decide +kernel
/-- The document is there, but downloads were paused. -/
example : (run (fun _ => good) ⟨fun _ => false, fun _ => true⟩ 5 true site).1.status = .retry ∧
    (run (fun _ => good) ⟨fun _ => false, fun _ => true⟩ 5 true site).1.file ≠ none :=
  complete_but_repeated _ _ 5 true site rfl rfl (by decide +kernel)
example : Over (fun n => if n = 0 then broken else good) site 2 10 2 ∧ ¬ Over (fun n => if n = 0 then broken else good) site 2 10 1 := by
  unfold Over; decide +kernel

end Verif.WebFetch
