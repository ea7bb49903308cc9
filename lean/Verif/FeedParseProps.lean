import Verif.FeedParse
import Verif.NzbParseProps
import Verif.FeedTermProps
import Verif.RpcParamProps
/-
The items of a feed are those of the document (C145).
-/
namespace Verif.FeedParse
open CStr
open NzbParse (Event trim blank Tidy trim_tidy trim_blank dropWhile_tidy)
open FeedTerm (cutAt cutAt_first cutAt_none)
open XmlText (xmlDecode cleanDescription)
open OptStore (Same same_iff)

/-! ### Specification -/

/-- A text between two tags: blanks, the text proper, blanks. -/
structure Txt where
  l : Bytes
  t : Bytes
  r : Bytes

def Txt.Ok (x : Txt) : Prop := (∀ c ∈ x.l, blank c = true) ∧ (∀ c ∈ x.r, blank c = true) ∧ (x.t = [] ∨ Tidy x.t)

/-- An element of an item. -/
inductive Field
  | title (x : Txt)
  | link (x : Txt)
  | enclosure (url : Bytes) (length : Nat)
  | category (x : Txt)
  | description (x : Txt)
  | pubDate (x : Txt)
  | attr (tag n v : Bytes)
  | other (name : Bytes) (atts : List (Bytes × Bytes)) (x : Txt)

/-- The events for the text of an element: none, if there is no text. -/
def textEvents (x : Txt) : List Event := if x.l ++ (x.t ++ x.r) = [] then [] else [.chars (x.l ++ (x.t ++ x.r))]

def element (name : Bytes) (x : Txt) : List Event := .start name [] :: (textEvents x ++ [.stop name])

/-- The events for an element of an item. -/
def Field.events : Field → List Event
  | .title x => element (lit "title") x
  | .link x => element (lit "link") x
  | .enclosure u n => [.start (lit "enclosure") [(lit "url", u), (lit "length", dec n), (lit "type", lit "application/x-nzb")], .stop (lit "enclosure")]
  | .category x => element (lit "category") x
  | .description x => element (lit "description") x
  | .pubDate x => element (lit "pubDate") x
  | .attr tag n v => [.start tag [(lit "name", n), (lit "value", v)], .stop tag]
  | .other name atts x => .start name atts :: (textEvents x ++ [.stop name])

/-- The names which have a meaning. -/
def known : List Bytes := [lit "item", lit "enclosure", lit "newznab:attr", lit "nZEDb:attr", lit "title", lit "link", lit "category", lit "description", lit "pubDate"]

/-- Elements as indexers write them: a URL which is decoded to a text, a description which isn't empty and can be cleaned, a title whose first quotation mark isn't
its last character. -/
def Field.Ok : Field → Prop
  | .title x => x.Ok ∧ (parseSubject x.t).isSome
  | .link x => x.Ok
  | .enclosure u n => n < 2 ^ 63 ∧ ∃ d, xmlDecode u = some d ∧ d ≠ []
  | .category x => x.Ok
  | .description x => x.Ok ∧ x.t ≠ [] ∧ (cleanDescription x.t).isSome
  | .pubDate x => x.Ok
  | .attr tag _ _ => tag = lit "newznab:attr" ∨ tag = lit "nZEDb:attr"
  | .other name _ x => name ∉ known ∧ x.Ok

/-- An item with its elements, in a feed: elements of the channel, the items, the ends of the channel and of the document. -/
def itemEvents (fs : List Field) : List Event := .start (lit "item") [] :: (fs.flatMap Field.events ++ [.stop (lit "item")])

def feedEvents (head : List Field) (items : List (List Field)) : List Event :=
  .start (lit "rss") [] :: .start (lit "channel") [] ::
    (head.flatMap Field.events ++ (items.flatMap itemEvents ++ [.stop (lit "channel"), .stop (lit "rss")]))

def Field.isEnclosure : Field → Bool
  | .enclosure _ _ => true
  | _ => false

/-- The value of an element, if it is one of the given kind. -/
def Field.titleOf : Field → Option Bytes
  | .title x => some x.t
  | _ => none
def Field.categoryOf : Field → Option Bytes
  | .category x => some x.t
  | _ => none
def Field.descriptionOf : Field → Option Bytes
  | .description x => cleanDescription x.t
  | _ => none
def Field.timeOf (date : Bytes → Int) : Field → Option Int
  | .pubDate x => if 0 < date x.t then some (date x.t) else none
  | _ => none
def Field.attrOf : Field → Option (Bytes × Bytes)
  | .attr _ n v => some (n, v)
  | _ => none
def Field.valueOf (name : String) : Field → Option Bytes
  | .attr _ n v => if n = lit name then some v else none
  | _ => none

/-- The last element of a kind. -/
def last {α : Type} (g : Field → Option α) (fs : List Field) : Option α := (fs.filterMap g).getLast?

/-- The item which is described by its elements: of each kind the last one counts, all attributes are kept. The URL is that of the last enclosure, without
enclosure that of the first link which isn't empty; the size is the length in the last enclosure, if it is not 0, without enclosure the first attribute
`size` which is not 0. -/
structure Described (date : Bytes → Int) (fs : List Field) (it : Item) : Prop where
  title : it.title = last Field.titleOf fs
  filename : it.filename = (last Field.titleOf fs).bind parseSubject
  category : it.category = (last Field.categoryOf fs).getD []
  description : it.description = (last Field.descriptionOf fs).getD []
  time : it.time = (last (Field.timeOf date) fs).getD 0
  attrs : it.attrs = fs.filterMap Field.attrOf
  imdb : it.imdb = ((last (Field.valueOf "imdb") fs).map OptStore.intOf).getD 0
  rage : it.rage = ((last (Field.valueOf "rageid") fs).map OptStore.intOf).getD 0
  tvdb : it.tvdb = ((last (Field.valueOf "tvdbid") fs).map OptStore.intOf).getD 0
  tvmaze : it.tvmaze = ((last (Field.valueOf "tvmazeid") fs).map OptStore.intOf).getD 0
  season : it.season = last (Field.valueOf "season") fs
  episode : it.episode = last (Field.valueOf "episode") fs
  url_enclosure : ∀ a b u n, fs = a ++ .enclosure u n :: b → (∀ f ∈ b, f.isEnclosure = false) → it.url = xmlDecode u
  url_link : ∀ a b x, fs = a ++ .link x :: b → (∀ f ∈ fs, f.isEnclosure = false) → (∀ y, .link y ∈ a → y.t = []) → x.t ≠ [] → it.url = some x.t
  size_enclosure : ∀ a b u (n : Nat), fs = a ++ .enclosure u n :: b → (∀ f ∈ b, f.isEnclosure = false) → n ≠ 0 → it.size = (n : Int)
  size_attr : ∀ a b tag v, fs = a ++ .attr tag (lit "size") v :: b → (∀ f ∈ fs, f.isEnclosure = false) →
    (∀ f ∈ a, ∀ w, f.valueOf "size" = some w → atoll w = 0) → atoll v ≠ 0 → it.size = atoll v

/-! ### Texts -/

theorem trim_txt (x : Txt) (h : x.Ok) : trim (x.l ++ (x.t ++ x.r)) = x.t := by
  obtain ⟨h1, h2, h3⟩ := h
  rcases h3 with h3 | h3
  · rw [h3, List.nil_append]
    exact trim_blank (fun c hc => (List.mem_append.1 hc).elim (h1 c) (h2 c))
  · have d : ∀ (l s : Bytes), (∀ c ∈ l, blank c = true) → (l ++ s).dropWhile blank = s.dropWhile blank := by
      intro l s hl
      induction l with
      | nil => rfl
      | cons c l ih =>
        rw [List.cons_append, List.dropWhile_cons, if_pos (hl c List.mem_cons_self)]
        exact ih (fun b hb => hl b (List.mem_cons_of_mem _ hb))
    unfold trim
    rw [d _ _ h1]
    have e1 : (x.t ++ x.r).dropWhile blank = x.t ++ x.r := by
      obtain ⟨c, r, e, hc⟩ := h3.1
      rw [e]
      exact dropWhile_tidy ⟨c, r ++ x.r, rfl, hc⟩
    rw [e1, List.reverse_append, d _ _ (fun c hc => h2 c (List.mem_reverse.1 hc))]
    have := trim_tidy h3
    unfold trim at this
    rw [dropWhile_tidy h3.1] at this
    exact this

theorem run_cons {date : Bytes → Int} {s t : St} {e : Event} {es : List Event} (h : step date s e = some t) : run date s (e :: es) = run date t es := by
  rw [run, h]

theorem run_append (date : Bytes → Int) (a b : List Event) : ∀ s : St, run date s (a ++ b) = (run date s a).bind (fun s => run date s b) := by
  induction a with
  | nil => intro s; rfl
  | cons e a ih =>
    intro s
    rw [List.cons_append, run, run]
    cases step date s e with
    | none => rfl
    | some t => exact ih t

theorem run_text (date : Bytes → Int) (s : St) (x : Txt) (h : x.Ok) (es : List Event) (hs : s.text = []) :
    run date s (textEvents x ++ es) = run date { s with text := x.t } es := by
  have ht := trim_txt x h
  unfold textEvents
  split
  · rename_i he
    have : x.t = [] := (List.append_eq_nil_iff.1 (List.append_eq_nil_iff.1 he).2).1
    rw [this, ← hs]; rfl
  · rw [List.singleton_append]
    refine run_cons ?_
    show some (content s _) = _
    unfold content
    rw [ht]
    split
    · rename_i h0; rw [h0, ← hs]
    · rw [hs, List.nil_append]

theorem cutAt_some {c : UInt8} : ∀ {s a b : Bytes}, cutAt c s = some (a, b) → s = a ++ c :: b
  | [], _, _, h => nomatch h
  | x :: s, a, b, h => by
    rw [cutAt] at h
    split at h
    · rename_i e; cases h; rw [e]; rfl
    · cases hq : cutAt c s with
      | none => rw [hq] at h; exact nomatch h
      | some p => rw [hq] at h; cases h; rw [cutAt_some hq]; rfl

/-! ### One element -/

/-- What an element does to an item. -/
def apply (date : Bytes → Int) (it : Item) : Field → Item
  | .title x => { it with title := some x.t, filename := parseSubject x.t }
  | .link x => if it.url.getD [] = [] then { it with url := some x.t } else it
  | .enclosure u n => { it with url := xmlDecode u, size := n }
  | .category x => { it with category := x.t }
  | .description x => { it with description := (cleanDescription x.t).getD [] }
  | .pubDate x => if 0 < date x.t then { it with time := date x.t } else it
  | .attr _ n v => addAttr it n v
  | .other _ _ _ => it

theorem start_plain (date : Bytes → Int) (s : St) (name : Bytes) (atts : List (Bytes × Bytes)) (h1 : name ≠ lit "item") (h2 : name ≠ lit "enclosure") (h3 : name ≠ lit "newznab:attr")
    (h4 : name ≠ lit "nZEDb:attr") : step date s (.start name atts) = some { s with text := [] } := by
  rw [step]
  unfold startElement
  rw [if_neg h1]
  split
  · rfl
  · rw [if_neg h2, if_neg (by simp [h3, h4])]

theorem run_field (date : Bytes → Int) (f : Field) (hf : f.Ok) (items : List Item) (it : Item) (tx : Bytes) (es : List Event) :
    ∃ tx', run date ⟨items, some it, tx⟩ (f.events ++ es) = run date ⟨items, some (apply date it f), tx'⟩ es := by
  have el : ∀ (name : Bytes) (atts : List (Bytes × Bytes)) (x : Txt) (it' : Item) (tx' : Bytes), x.Ok → name ≠ lit "item" → name ≠ lit "enclosure" → name ≠ lit "newznab:attr" → name ≠ lit "nZEDb:attr" →
      endElement date ⟨items, some it, x.t⟩ name = some ⟨items, some it', tx'⟩ →
      run date ⟨items, some it, tx⟩ ((.start name atts :: (textEvents x ++ [.stop name])) ++ es) = run date ⟨items, some it', tx'⟩ es := by
    intro name atts x it' tx' hx h1 h2 h3 h4 he
    rw [List.cons_append, List.append_assoc]
    rw [run_cons (t := ⟨items, some it, []⟩) (start_plain _ _ _ _ h1 h2 h3 h4), run_text date _ x hx _ rfl]
    exact run_cons he
  cases f with
  | title x =>
    obtain ⟨hx, hp⟩ := hf
    obtain ⟨g, hg⟩ := Option.isSome_iff_exists.1 hp
    refine ⟨[], el _ [] x _ _ hx (by decide +kernel) (by decide +kernel) (by decide +kernel) (by decide +kernel) ?_⟩
    unfold endElement
    dsimp only
    rw [if_pos rfl, hg]
    simp only [apply, hg]
  | link x =>
    by_cases hu : it.url.getD [] = []
    · refine ⟨[], el _ [] x _ _ hf (by decide +kernel) (by decide +kernel) (by decide +kernel) (by decide +kernel) ?_⟩
      unfold endElement
      dsimp only
      rw [if_neg (by decide +kernel), if_pos (by rw [hu]; decide +kernel)]
      simp only [apply, if_pos hu]
    · refine ⟨x.t, el _ [] x _ _ hf (by decide +kernel) (by decide +kernel) (by decide +kernel) (by decide +kernel) ?_⟩
      unfold endElement
      dsimp only
      rw [if_neg (by decide +kernel), if_neg (by simp [hu]), if_neg (by decide +kernel), if_neg (by decide +kernel), if_neg (by decide +kernel)]
      simp only [apply, if_neg hu]
  | enclosure u n =>
    obtain ⟨hn63, d, hd, _⟩ := hf
    refine ⟨[], ?_⟩
    have hn : atoll (dec n) = n := by
      have := atoll_dec n [] hn63 (by simp)
      rwa [List.append_nil] at this
    rw [Field.events, List.cons_append, run_cons (t := ⟨items, some (apply date it (.enclosure u n)), []⟩)]
    · refine run_cons ?_
      rw [step]
      unfold endElement
      dsimp only
      rw [if_neg (by decide +kernel), if_neg (by rw [Bool.and_eq_true]; intro g; exact absurd g.1 (by decide +kernel)), if_neg (by decide +kernel), if_neg (by decide +kernel), if_neg (by decide +kernel)]
    · rw [step]
      unfold startElement
      rw [if_neg (by decide +kernel)]
      dsimp only
      rw [if_pos rfl, if_neg (by simp)]
      have : enclosure it [(lit "url", u), (lit "length", dec n), (lit "type", lit "application/x-nzb")] = some (apply date it (.enclosure u n)) := by
        rw [enclosure]
        dsimp only
        rw [if_pos rfl, hd]
        dsimp only
        rw [enclosure]
        dsimp only
        rw [if_neg (by decide +kernel), if_pos rfl, enclosure, if_neg (by decide +kernel), if_neg (by decide +kernel), enclosure]
        rw [hn]
        simp only [apply, hd]
      rw [this]
  | category x =>
    refine ⟨[], el _ [] x _ _ hf (by decide +kernel) (by decide +kernel) (by decide +kernel) (by decide +kernel) ?_⟩
    unfold endElement
    dsimp only
    rw [if_neg (by decide +kernel), if_neg (by rw [Bool.and_eq_true]; intro g; exact absurd g.1 (by decide +kernel)), if_pos rfl]
    rfl
  | description x =>
    obtain ⟨hx, h0, hp⟩ := hf
    obtain ⟨g, hg⟩ := Option.isSome_iff_exists.1 hp
    refine ⟨[], el _ [] x _ _ hx (by decide +kernel) (by decide +kernel) (by decide +kernel) (by decide +kernel) ?_⟩
    unfold endElement
    dsimp only
    rw [if_neg (by decide +kernel), if_neg (by rw [Bool.and_eq_true]; intro g; exact absurd g.1 (by decide +kernel)), if_neg (by decide +kernel), if_pos rfl, if_neg h0, hg]
    simp only [apply, hg]
    rfl
  | pubDate x =>
    refine ⟨[], el _ [] x _ _ hf (by decide +kernel) (by decide +kernel) (by decide +kernel) (by decide +kernel) ?_⟩
    unfold endElement
    dsimp only
    rw [if_neg (by decide +kernel), if_neg (by rw [Bool.and_eq_true]; intro g; exact absurd g.1 (by decide +kernel)), if_neg (by decide +kernel), if_neg (by decide +kernel), if_pos rfl]
    rfl
  | attr tag n v =>
    refine ⟨[], ?_⟩
    have hi : tag ≠ lit "item" ∧ tag ≠ lit "enclosure" ∧ tag ≠ lit "title" ∧ tag ≠ lit "link" ∧ tag ≠ lit "category" ∧ tag ≠ lit "description" ∧ tag ≠ lit "pubDate" := by
      rcases hf with h | h <;> rw [h] <;> decide +kernel
    rw [Field.events, List.cons_append, run_cons (t := ⟨items, some (apply date it (.attr tag n v)), []⟩)]
    · refine run_cons ?_
      rw [step]
      unfold endElement
      dsimp only
      rw [if_neg hi.2.2.1, if_neg (by simp [hi.2.2.2.1]), if_neg hi.2.2.2.2.1, if_neg hi.2.2.2.2.2.1, if_neg hi.2.2.2.2.2.2]
    · rw [step]
      unfold startElement
      rw [if_neg hi.1]
      dsimp only
      rw [if_neg hi.2.1, if_pos (by rcases hf with h | h <;> simp [h])]
      rfl
  | other name atts x =>
    obtain ⟨hk, hx⟩ := hf
    simp only [known, List.mem_cons, List.not_mem_nil, or_false, not_or] at hk
    obtain ⟨k1, k2, k3, k4, k5, k6, k7, k8, k9⟩ := hk
    refine ⟨x.t, el _ atts x _ _ hx k1 k2 k3 k4 ?_⟩
    unfold endElement
    dsimp only
    rw [if_neg k5, if_neg (by simp [k6]), if_neg k7, if_neg k8, if_neg k9]
    rfl

theorem run_fields (date : Bytes → Int) (items : List Item) : ∀ (fs : List Field) (it : Item) (tx : Bytes) (es : List Event), (∀ f ∈ fs, f.Ok) →
    ∃ tx', run date ⟨items, some it, tx⟩ (fs.flatMap Field.events ++ es) = run date ⟨items, some (fs.foldl (apply date) it), tx'⟩ es
  | [], it, tx, es, _ => ⟨tx, rfl⟩
  | f :: fs, it, tx, es, h => by
    obtain ⟨t1, e1⟩ := run_field date f (h f List.mem_cons_self) items it tx (fs.flatMap Field.events ++ es)
    obtain ⟨t2, e2⟩ := run_fields date items fs (apply date it f) t1 es (fun g hg => h g (List.mem_cons_of_mem _ hg))
    exact ⟨t2, by rw [List.flatMap_cons, List.append_assoc, e1, e2, List.foldl_cons]⟩

/-- Elements before the first item change nothing. -/
theorem run_head (date : Bytes → Int) : ∀ (fs : List Field) (tx : Bytes) (es : List Event), (∀ f ∈ fs, f.Ok) →
    ∃ tx', run date ⟨[], none, tx⟩ (fs.flatMap Field.events ++ es) = run date ⟨[], none, tx'⟩ es
  | [], tx, es, _ => ⟨tx, rfl⟩
  | f :: fs, tx, es, h => by
    have hst : ∀ (t : Bytes) (name : Bytes) (atts : List (Bytes × Bytes)), name ≠ lit "item" → step date ⟨[], none, t⟩ (.start name atts) = some ⟨[], none, []⟩ := by
      intro t name atts hn
      rw [step]
      unfold startElement
      rw [if_neg hn]
    have hen : ∀ (t : Bytes) (name : Bytes), step date ⟨[], none, t⟩ (.stop name) = some ⟨[], none, t⟩ := fun _ _ => rfl
    have key : ∃ t1, run date ⟨[], none, tx⟩ (f.events ++ (fs.flatMap Field.events ++ es)) = run date ⟨[], none, t1⟩ (fs.flatMap Field.events ++ es) := by
      have el : ∀ (name : Bytes) (atts : List (Bytes × Bytes)) (x : Txt), x.Ok → name ≠ lit "item" → ∃ t1,
          run date ⟨[], none, tx⟩ ((.start name atts :: (textEvents x ++ [.stop name])) ++ (fs.flatMap Field.events ++ es)) = run date ⟨[], none, t1⟩ (fs.flatMap Field.events ++ es) := by
        intro name atts x hx hn
        rw [List.cons_append, List.append_assoc, run_cons (hst _ _ _ hn), run_text date _ x hx _ rfl]
        exact ⟨x.t, run_cons (hen _ _)⟩
      have hf := h f List.mem_cons_self
      cases f with
      | title x => exact el _ _ x hf.1 (by decide +kernel)
      | link x => exact el _ _ x hf (by decide +kernel)
      | category x => exact el _ _ x hf (by decide +kernel)
      | description x => exact el _ _ x hf.1 (by decide +kernel)
      | pubDate x => exact el _ _ x hf (by decide +kernel)
      | other name atts x => exact el _ _ x hf.2 (fun e => hf.1 (by rw [e]; simp [known]))
      | enclosure u n =>
        exact ⟨[], by rw [Field.events, List.cons_append, run_cons (hst _ _ _ (by decide +kernel))]; exact run_cons (hen _ _)⟩
      | attr tag n v =>
        exact ⟨[], by rw [Field.events, List.cons_append, run_cons (hst _ _ _ (by rcases hf with e | e <;> rw [e] <;> decide +kernel))]; exact run_cons (hen _ _)⟩
    obtain ⟨t1, e1⟩ := key
    obtain ⟨t2, e2⟩ := run_head date fs t1 es (fun g hg => h g (List.mem_cons_of_mem _ hg))
    exact ⟨t2, by rw [List.flatMap_cons, List.append_assoc, e1, e2]⟩

/-- An end which means nothing. -/
theorem end_plain (date : Bytes → Int) (s : St) (name : Bytes) (h : name ∈ [lit "item", lit "channel", lit "rss"]) : step date s (.stop name) = some s := by
  rw [step]
  unfold endElement
  split
  · rfl
  · simp only [List.mem_cons, List.not_mem_nil, or_false] at h
    rcases h with h | h | h <;> subst h <;>
    rw [if_neg (by decide +kernel), if_neg (by rw [Bool.and_eq_true]; intro g; exact absurd g.1 (by decide +kernel)), if_neg (by decide +kernel), if_neg (by decide +kernel), if_neg (by decide +kernel)]

theorem run_items (date : Bytes → Int) : ∀ (its : List (List Field)) (s : St) (es : List Event), (∀ fs ∈ its, ∀ f ∈ fs, f.Ok) →
    ∃ s', run date s (its.flatMap itemEvents ++ es) = run date s' es ∧ s'.all = s.all ++ its.map (fun fs => fs.foldl (apply date) {})
  | [], s, es, _ => ⟨s, rfl, by simp⟩
  | fs :: its, s, es, h => by
    have h1 : step date s (.start (lit "item") []) = some ⟨s.all, some {}, []⟩ := by
      rw [step]
      unfold startElement
      rw [if_pos rfl]
    obtain ⟨t1, e1⟩ := run_fields date s.all fs {} [] ([.stop (lit "item")] ++ (its.flatMap itemEvents ++ es)) (h fs List.mem_cons_self)
    obtain ⟨s2, e2, e3⟩ := run_items date its ⟨s.all, some (fs.foldl (apply date) {}), t1⟩ es (fun g hg => h g (List.mem_cons_of_mem _ hg))
    refine ⟨s2, ?_, ?_⟩
    · rw [List.flatMap_cons, itemEvents, List.append_assoc, List.cons_append, run_cons h1, List.append_assoc, e1, List.singleton_append, run_cons (end_plain _ _ _ (by simp)), e2]
    · rw [e3]; simp [St.all]

theorem parse_feed (date : Bytes → Int) (head : List Field) (its : List (List Field)) (hh : ∀ f ∈ head, f.Ok) (hi : ∀ fs ∈ its, ∀ f ∈ fs, f.Ok) :
    parse date (feedEvents head its) = some (its.map (fun fs => fs.foldl (apply date) {})) := by
  unfold parse feedEvents
  rw [run_cons (t := ⟨[], none, []⟩) (start_plain _ _ _ _ (by decide +kernel) (by decide +kernel) (by decide +kernel) (by decide +kernel)),
    run_cons (t := ⟨[], none, []⟩) (start_plain _ _ _ _ (by decide +kernel) (by decide +kernel) (by decide +kernel) (by decide +kernel))]
  obtain ⟨t1, e1⟩ := run_head date head [] (its.flatMap itemEvents ++ [.stop (lit "channel"), .stop (lit "rss")]) hh
  obtain ⟨s2, e2, e3⟩ := run_items date its ⟨[], none, t1⟩ [.stop (lit "channel"), .stop (lit "rss")] hi
  rw [e1, e2, run_cons (end_plain _ _ _ (by simp)), run_cons (end_plain _ _ _ (by simp))]
  show some s2.all = _
  rw [e3]; rfl

/-! ### The elements of an item -/

theorem last_wins {α : Type} (date : Bytes → Int) (π : Item → α) (g : Field → Option α) (P : Field → Prop) (h : ∀ it f, P f → π (apply date it f) = (g f).getD (π it)) :
    ∀ (fs : List Field) (it : Item), (∀ f ∈ fs, P f) → π (fs.foldl (apply date) it) = (last g fs).getD (π it)
  | [], it, _ => rfl
  | f :: fs, it, hp => by
    rw [List.foldl_cons, last_wins date π g P h fs (apply date it f) (fun x hx => hp x (List.mem_cons_of_mem _ hx)), h it f (hp f List.mem_cons_self)]
    unfold last
    cases hg : g f with
    | none => rw [List.filterMap_cons_none hg]; rfl
    | some v =>
      rw [List.filterMap_cons_some hg]
      cases hl : fs.filterMap g with
      | nil => rfl
      | cons y ys => rw [List.getLast?_cons_cons]; cases hq : (y :: ys).getLast? with
        | none => simp at hq
        | some z => rfl

theorem apply_attr_fields (it : Item) (n v : Bytes) :
    (addAttr it n v).title = it.title ∧ (addAttr it n v).filename = it.filename ∧ (addAttr it n v).url = it.url ∧ (addAttr it n v).time = it.time ∧
    (addAttr it n v).category = it.category ∧ (addAttr it n v).description = it.description ∧ (addAttr it n v).attrs = it.attrs ++ [(n, v)] := by
  unfold addAttr
  dsimp only
  repeat' split
  all_goals exact ⟨rfl, rfl, rfl, rfl, rfl, rfl, rfl⟩

theorem last_map {α β : Type} (g : Field → Option α) (k : α → β) (fs : List Field) : last (fun f => (g f).map k) fs = (last g fs).map k := by
  unfold last
  rw [show fs.filterMap (fun f => (g f).map k) = (fs.filterMap g).map k by rw [List.map_filterMap], List.getLast?_map]

/-- The values which are set by attributes. -/
theorem attr_values (it : Item) (n v : Bytes) :
    (addAttr it n v).imdb = (if n = lit "imdb" then OptStore.intOf v else it.imdb) ∧
    (addAttr it n v).rage = (if n = lit "rageid" then OptStore.intOf v else it.rage) ∧
    (addAttr it n v).tvdb = (if n = lit "tvdbid" then OptStore.intOf v else it.tvdb) ∧
    (addAttr it n v).tvmaze = (if n = lit "tvmazeid" then OptStore.intOf v else it.tvmaze) ∧
    (addAttr it n v).season = (if n = lit "season" then some v else it.season) ∧
    (addAttr it n v).episode = (if n = lit "episode" then some v else it.episode) ∧
    (addAttr it n v).size = (if it.size = 0 ∧ n = lit "size" then atoll v else it.size) := by
  have ne : ∀ a b : Bytes, a ≠ b → n = a → ¬ n = b := fun a b h e g => h (e.symm.trans g)
  by_cases h1 : n = lit "size"
  · subst h1
    unfold addAttr
    dsimp only
    by_cases h0 : it.size = 0
    · rw [if_pos ⟨h0, rfl⟩]
      exact ⟨rfl, rfl, rfl, rfl, rfl, rfl, (if_pos ⟨h0, rfl⟩).symm⟩
    · rw [if_neg (fun g => h0 g.1)]
      exact ⟨rfl, rfl, rfl, rfl, rfl, rfl, (if_neg (fun g => h0 g.1)).symm⟩
  · unfold addAttr
    dsimp only
    have hs : ¬ (it.size = 0 ∧ n = lit "size") := fun g => h1 g.2
    rw [if_neg hs, if_neg hs]
    by_cases h2 : n = lit "imdb"
    · subst h2; exact ⟨rfl, rfl, rfl, rfl, rfl, rfl, rfl⟩
    rw [if_neg h2, if_neg h2]
    by_cases h3 : n = lit "rageid"
    · subst h3; exact ⟨rfl, rfl, rfl, rfl, rfl, rfl, rfl⟩
    rw [if_neg h3, if_neg h3]
    by_cases h4 : n = lit "tvdbid"
    · subst h4; exact ⟨rfl, rfl, rfl, rfl, rfl, rfl, rfl⟩
    rw [if_neg h4, if_neg h4]
    by_cases h5 : n = lit "tvmazeid"
    · subst h5; exact ⟨rfl, rfl, rfl, rfl, rfl, rfl, rfl⟩
    rw [if_neg h5, if_neg h5]
    by_cases h6 : n = lit "episode"
    · subst h6; exact ⟨rfl, rfl, rfl, rfl, rfl, rfl, rfl⟩
    rw [if_neg h6, if_neg h6]
    by_cases h7 : n = lit "season"
    · subst h7; exact ⟨rfl, rfl, rfl, rfl, rfl, rfl, rfl⟩
    rw [if_neg h7, if_neg h7]
    exact ⟨rfl, rfl, rfl, rfl, rfl, rfl, rfl⟩

theorem keep_url (date : Bytes → Int) : ∀ (fs : List Field) (it : Item), (∀ f ∈ fs, f.isEnclosure = false) → it.url.getD [] ≠ [] → (fs.foldl (apply date) it).url = it.url
  | [], _, _, _ => rfl
  | f :: fs, it, h, hu => by
    have e : (apply date it f).url = it.url := by
      cases f with
      | link x => simp only [apply, if_neg hu]
      | enclosure u n => exact nomatch h _ List.mem_cons_self
      | pubDate x => simp only [apply]; split <;> rfl
      | attr t n v => exact (apply_attr_fields it n v).2.2.1
      | _ => rfl
    rw [List.foldl_cons, keep_url date fs _ (fun g hg => h g (List.mem_cons_of_mem _ hg)) (by rw [e]; exact hu), e]

/-- Links without text, and no enclosure: the URL stays empty. -/
theorem empty_url (date : Bytes → Int) : ∀ (fs : List Field) (it : Item), (∀ f ∈ fs, f.isEnclosure = false) → (∀ y, .link y ∈ fs → y.t = []) → it.url.getD [] = [] →
    (fs.foldl (apply date) it).url.getD [] = []
  | [], _, _, _, hu => hu
  | f :: fs, it, h, hl, hu => by
    have e : (apply date it f).url.getD [] = [] := by
      cases f with
      | link x => simp only [apply, if_pos hu]; exact hl x List.mem_cons_self
      | enclosure u n => exact nomatch h _ List.mem_cons_self
      | pubDate x => simp only [apply]; split <;> exact hu
      | attr t n v => simp only [apply]; rw [(apply_attr_fields it n v).2.2.1]; exact hu
      | _ => exact hu
    rw [List.foldl_cons]
    exact empty_url date fs _ (fun g hg => h g (List.mem_cons_of_mem _ hg)) (fun y hy => hl y (List.mem_cons_of_mem _ hy)) e

theorem apply_size (date : Bytes → Int) (it : Item) (f : Field) (h : f.isEnclosure = false) :
    (apply date it f).size = if it.size = 0 then ((f.valueOf "size").map atoll).getD 0 else it.size := by
  cases f with
  | enclosure u n => exact nomatch h
  | attr t n v =>
    simp only [apply, (attr_values it n v).2.2.2.2.2.2, Field.valueOf]
    by_cases h1 : it.size = 0 <;> by_cases h2 : n = lit "size" <;> simp [h1, h2]
  | pubDate x =>
    simp only [apply, Field.valueOf]
    split <;> split <;> simp_all
  | link x =>
    simp only [apply, Field.valueOf]
    split <;> split <;> simp_all
  | _ =>
    simp only [apply, Field.valueOf]
    split <;> simp_all

theorem keep_size (date : Bytes → Int) : ∀ (fs : List Field) (it : Item), (∀ f ∈ fs, f.isEnclosure = false) → it.size ≠ 0 → (fs.foldl (apply date) it).size = it.size
  | [], _, _, _ => rfl
  | f :: fs, it, h, hu => by
    have e : (apply date it f).size = it.size := by rw [apply_size date it f (h f List.mem_cons_self), if_neg hu]
    rw [List.foldl_cons, keep_size date fs _ (fun g hg => h g (List.mem_cons_of_mem _ hg)) (by rw [e]; exact hu), e]

theorem zero_size (date : Bytes → Int) : ∀ (fs : List Field) (it : Item), (∀ f ∈ fs, f.isEnclosure = false) → (∀ f ∈ fs, ∀ w, f.valueOf "size" = some w → atoll w = 0) →
    it.size = 0 → (fs.foldl (apply date) it).size = 0
  | [], _, _, _, hu => hu
  | f :: fs, it, h, hl, hu => by
    have e : (apply date it f).size = 0 := by
      rw [apply_size date it f (h f List.mem_cons_self), if_pos hu]
      cases hv : f.valueOf "size" with
      | none => rfl
      | some w => exact hl f List.mem_cons_self w hv
    rw [List.foldl_cons]
    exact zero_size date fs _ (fun g hg => h g (List.mem_cons_of_mem _ hg)) (fun g hg => hl g (List.mem_cons_of_mem _ hg)) e

theorem all_attrs (date : Bytes → Int) : ∀ (fs : List Field) (it : Item), (fs.foldl (apply date) it).attrs = it.attrs ++ fs.filterMap Field.attrOf
  | [], it => by simp
  | f :: fs, it => by
    rw [List.foldl_cons, all_attrs date fs]
    cases f with
    | attr t n v =>
      rw [List.filterMap_cons_some (f := Field.attrOf) (a := .attr t n v) (b := (n, v)) rfl]
      simp only [apply, (apply_attr_fields it n v).2.2.2.2.2.2]
      simp
    | link x => simp only [apply]; split <;> rfl
    | pubDate x => simp only [apply]; split <;> rfl
    | _ => rfl

theorem described (date : Bytes → Int) (fs : List Field) (h : ∀ f ∈ fs, f.Ok) : Described date fs (fs.foldl (apply date) {}) := by
  have val : ∀ (π : Item → Int) (name : String), (∀ it n v, π (addAttr it n v) = (if n = lit name then OptStore.intOf v else π it)) →
      (∀ (it : Item) (f : Field), (∀ t n v, f ≠ .attr t n v) → π (apply date it f) = π it) → π {} = 0 →
      π (fs.foldl (apply date) {}) = ((last (Field.valueOf name) fs).map OptStore.intOf).getD 0 := by
    intro π name ha ho h0
    rw [last_wins date π (fun f => (f.valueOf name).map OptStore.intOf) (fun _ => True) ?_ fs {} (fun _ _ => trivial), last_map, h0]
    intro it f _
    cases f with
    | attr t n v =>
      show π (addAttr it n v) = _
      rw [ha]
      simp only [Field.valueOf]
      split <;> rfl
    | _ => exact ho it _ (by intros; exact nofun)
  have txt : ∀ (π : Item → Option Bytes) (name : String), (∀ it n v, π (addAttr it n v) = (if n = lit name then some v else π it)) →
      (∀ (it : Item) (f : Field), (∀ t n v, f ≠ .attr t n v) → π (apply date it f) = π it) → π {} = none →
      π (fs.foldl (apply date) {}) = last (Field.valueOf name) fs := by
    intro π name ha ho h0
    rw [last_wins date π (fun f => (f.valueOf name).map some) (fun _ => True) ?_ fs {} (fun _ _ => trivial), last_map, h0]
    · cases last (Field.valueOf name) fs <;> rfl
    intro it f _
    cases f with
    | attr t n v =>
      show π (addAttr it n v) = _
      rw [ha]
      simp only [Field.valueOf]
      split <;> rfl
    | _ => exact ho it _ (by intros; exact nofun)
  have oth : ∀ (it : Item) (f : Field), (∀ t n v, f ≠ .attr t n v) → (apply date it f).imdb = it.imdb ∧ (apply date it f).rage = it.rage ∧ (apply date it f).tvdb = it.tvdb ∧
      (apply date it f).tvmaze = it.tvmaze ∧ (apply date it f).season = it.season ∧ (apply date it f).episode = it.episode := by
    intro it f hf
    cases f with
    | attr t n v => exact absurd rfl (hf t n v)
    | link x => simp only [apply]; split <;> exact ⟨rfl, rfl, rfl, rfl, rfl, rfl⟩
    | pubDate x => simp only [apply]; split <;> exact ⟨rfl, rfl, rfl, rfl, rfl, rfl⟩
    | _ => exact ⟨rfl, rfl, rfl, rfl, rfl, rfl⟩
  refine ⟨?_, ?_, ?_, ?_, ?_, ?_, ?_, ?_, ?_, ?_, ?_, ?_, ?_, ?_, ?_, ?_⟩
  · rw [last_wins date Item.title (fun f => (f.titleOf).map some) (fun _ => True) ?_ fs {} (fun _ _ => trivial), last_map]
    · cases last Field.titleOf fs <;> rfl
    · intro it f _
      cases f with
      | attr t n v => exact (apply_attr_fields it n v).1
      | link x => simp only [apply, Field.titleOf]; split <;> rfl
      | pubDate x => simp only [apply, Field.titleOf]; split <;> rfl
      | _ => rfl
  · rw [last_wins date Item.filename (fun f => (f.titleOf).map parseSubject) (fun _ => True) ?_ fs {} (fun _ _ => trivial), last_map]
    · cases last Field.titleOf fs <;> rfl
    · intro it f _
      cases f with
      | attr t n v => exact (apply_attr_fields it n v).2.1
      | link x => simp only [apply, Field.titleOf]; split <;> rfl
      | pubDate x => simp only [apply, Field.titleOf]; split <;> rfl
      | _ => rfl
  · refine last_wins date Item.category Field.categoryOf (fun _ => True) ?_ fs {} (fun _ _ => trivial)
    intro it f _
    cases f with
    | attr t n v => exact (apply_attr_fields it n v).2.2.2.2.1
    | link x => simp only [apply, Field.categoryOf]; split <;> rfl
    | pubDate x => simp only [apply, Field.categoryOf]; split <;> rfl
    | _ => rfl
  · refine last_wins date Item.description Field.descriptionOf Field.Ok ?_ fs {} h
    intro it f hf
    cases f with
    | attr t n v => exact (apply_attr_fields it n v).2.2.2.2.2.1
    | link x => simp only [apply, Field.descriptionOf]; split <;> rfl
    | pubDate x => simp only [apply, Field.descriptionOf]; split <;> rfl
    | description x =>
      obtain ⟨g, hg⟩ := Option.isSome_iff_exists.1 hf.2.2
      simp only [apply, Field.descriptionOf, hg]
      rfl
    | _ => rfl
  · refine last_wins date Item.time (Field.timeOf date) (fun _ => True) ?_ fs {} (fun _ _ => trivial)
    intro it f _
    cases f with
    | attr t n v => exact (apply_attr_fields it n v).2.2.2.1
    | link x => simp only [apply, Field.timeOf]; split <;> rfl
    | pubDate x => simp only [apply, Field.timeOf]; split <;> rfl
    | _ => rfl
  · rw [all_attrs]; rfl
  · exact val Item.imdb "imdb" (fun it n v => (attr_values it n v).1) (fun it f hf => (oth it f hf).1) rfl
  · exact val Item.rage "rageid" (fun it n v => (attr_values it n v).2.1) (fun it f hf => (oth it f hf).2.1) rfl
  · exact val Item.tvdb "tvdbid" (fun it n v => (attr_values it n v).2.2.1) (fun it f hf => (oth it f hf).2.2.1) rfl
  · exact val Item.tvmaze "tvmazeid" (fun it n v => (attr_values it n v).2.2.2.1) (fun it f hf => (oth it f hf).2.2.2.1) rfl
  · exact txt Item.season "season" (fun it n v => (attr_values it n v).2.2.2.2.1) (fun it f hf => (oth it f hf).2.2.2.2.1) rfl
  · exact txt Item.episode "episode" (fun it n v => (attr_values it n v).2.2.2.2.2.1) (fun it f hf => (oth it f hf).2.2.2.2.2) rfl
  · intro a b u n e hb
    subst e
    obtain ⟨_, d, hd, hd0⟩ := h (.enclosure u n) (by simp)
    rw [List.foldl_append, List.foldl_cons, keep_url date b _ hb]
    · rfl
    · simp only [apply, hd]; exact hd0
  · intro a b x e hf hl hx
    subst e
    have h1 := empty_url date a {} (fun f hm => hf f (List.mem_append_left _ hm)) hl rfl
    rw [List.foldl_append, List.foldl_cons, keep_url date b]
    · simp only [apply, if_pos h1]
    · exact fun f hm => hf f (List.mem_append_right _ (List.mem_cons_of_mem _ hm))
    · simp only [apply, if_pos h1]; exact hx
  · intro a b u n e hb hn
    subst e
    rw [List.foldl_append, List.foldl_cons, keep_size date b _ hb]
    · rfl
    · simp only [apply]; omega
  · intro a b tag v e hf hl hv
    subst e
    have h1 := zero_size date a {} (fun f hm => hf f (List.mem_append_left _ hm)) hl rfl
    have h2 := apply_size date (a.foldl (apply date) {}) (.attr tag (lit "size") v) rfl
    rw [if_pos h1] at h2
    have h3 : (apply date (a.foldl (apply date) {}) (.attr tag (lit "size") v)).size = atoll v := by
      rw [h2]; simp only [Field.valueOf, if_pos]; rfl
    rw [List.foldl_append, List.foldl_cons, keep_size date b]
    · exact h3
    · exact fun f hm => hf f (List.mem_append_right _ (List.mem_cons_of_mem _ hm))
    · rw [h3]; exact hv

/-- C145: from a feed with any items exactly these are read, in their order, and each is as its elements describe it, in whatever order they are; elements of the
channel before the items don't matter, and no item gets anything from another one. -/
theorem feed_read_partial (date : Bytes → Int) (head : List Field) (its : List (List Field)) (hh : ∀ f ∈ head, f.Ok) (hi : ∀ fs ∈ its, ∀ f ∈ fs, f.Ok) :
    ∃ items, parse date (feedEvents head its) = some items ∧ items.length = its.length ∧
      ∀ (k : Nat) (fs : List Field) (it : Item), its[k]? = some fs → items[k]? = some it → Described date fs it := by
  refine ⟨_, parse_feed date head its hh hi, by simp, ?_⟩
  intro k fs it h1 h2
  rw [List.getElem?_map, h1] at h2
  cases h2
  exact described date fs (hi fs (List.mem_of_getElem? h1))

/-! ### The name of the file -/

/-- C145: without quotation marks the name is the title. -/
theorem filename_plain (title : Bytes) (h : (34 : UInt8) ∉ title) : parseSubject title = some title := by
  unfold parseSubject; rw [cutAt_none h]

/-- C145: a text with a dot in quotation marks is the name, without the extension `.par2`. -/
theorem filename_quoted (a m r : Bytes) (x : UInt8) (ha : (34 : UInt8) ∉ a) (hm : (34 : UInt8) ∉ m) (hd : (46 : UInt8) ∈ m) :
    ∃ f, parseSubject (a ++ 34 :: (x :: (m ++ 34 :: r))) = some f ∧
      ((∃ ext, Same ext (lit ".par2") ∧ x :: m = f ++ ext) ∨ (f = x :: m ∧ ∀ b ext, x :: m = b ++ ext → ¬ Same ext (lit ".par2"))) := by
  refine ⟨stripPar2 (x :: m), ?_, ?_⟩
  · unfold parseSubject
    rw [cutAt_first _ ha]
    dsimp only
    rw [cutAt_first _ hm]
    dsimp only
    rw [if_pos (by simpa using hd)]
  · have key : ∀ f b ext : Bytes, f = b ++ ext → Same ext (lit ".par2") → ∃ e, ext = 46 :: e ∧ (46 : UInt8) ∉ e := by
      intro f b ext _ hs
      have hlow : ext.map WildMask.lower = [46, 112, 97, 114, 50] := by
        unfold Same at hs; rw [hs]; decide +kernel
      have h46 : ∀ c : UInt8, WildMask.lower c = 46 → c = 46 := by
        intro c hc
        unfold WildMask.lower at hc
        split at hc
        · rename_i h
          have := congrArg UInt8.toNat hc
          rw [UInt8.toNat_ofNat'] at this
          have h2 : (46 : UInt8).toNat = 46 := rfl
          rw [h2] at this
          omega
        · exact hc
      cases ext with
      | nil => exact nomatch hlow
      | cons c e =>
        rw [List.map_cons, List.cons.injEq] at hlow
        refine ⟨e, by rw [h46 c hlow.1], ?_⟩
        intro g
        have : WildMask.lower 46 ∈ e.map WildMask.lower := List.mem_map_of_mem g
        rw [hlow.2] at this
        exact absurd this (by decide +kernel)
    unfold stripPar2
    cases hc : cutAt 46 (x :: m).reverse with
    | none =>
      right
      refine ⟨rfl, ?_⟩
      intro b ext e hs
      obtain ⟨e', he, hn⟩ := key _ b ext e hs
      have : cutAt 46 (x :: m).reverse = some (e'.reverse, b.reverse) := by
        rw [e, he]
        have : (b ++ 46 :: e').reverse = e'.reverse ++ 46 :: b.reverse := by simp
        rw [this, cutAt_first _ (by simpa using hn)]
      rw [this] at hc; exact nomatch hc
    | some p =>
      obtain ⟨e, b⟩ := p
      have hrev : (x :: m).reverse = e ++ 46 :: b := cutAt_some hc
      have hxm : x :: m = b.reverse ++ 46 :: e.reverse := by
        have := congrArg List.reverse hrev
        rw [List.reverse_reverse] at this
        rw [this]; simp
      dsimp only
      split
      · rename_i hq
        rw [same_iff] at hq
        left
        exact ⟨46 :: e.reverse, hq, hxm⟩
      · rename_i hq
        right
        refine ⟨rfl, ?_⟩
        intro b' ext e1 hs
        obtain ⟨e', he, hn⟩ := key _ b' ext e1 hs
        have : cutAt 46 (x :: m).reverse = some (e'.reverse, b'.reverse) := by
          rw [e1, he]
          have : (b' ++ 46 :: e').reverse = e'.reverse ++ 46 :: b'.reverse := by simp
          rw [this, cutAt_first _ (by simpa using hn)]
        rw [hc] at this
        injection this with this
        injection this with t1 t2
        apply hq
        rw [same_iff]
        have : 46 :: e.reverse = ext := by rw [t1, List.reverse_reverse, he]
        rw [this]; exact hs

/-- C145: the number of a season or an episode with or without a letter. -/
theorem number_of (n : Nat) (h : n ≤ 2147483647) (c : UInt8) (hc : isDigit c = false) : prefixedInt (dec n) = n ∧ prefixedInt (c :: dec n) = n := by
  have hv : OptStore.intOf (dec n) = n := by
    have := RpcParam.intOf_decInt (n : Int) (by omega) (by omega) [] (by simp)
    rw [List.append_nil, show decInt (n : Int) = dec n by unfold decInt; rw [if_neg (by omega)]; congr 1] at this
    exact this
  refine ⟨?_, ?_⟩
  · cases hd : dec n with
    | nil => rw [hd] at hv; rw [← hv]; rfl
    | cons x l =>
      rw [prefixedInt, if_pos (isDigit_dec n x (by rw [hd]; exact List.mem_cons_self)), ← hd, hv]
  · rw [prefixedInt, if_neg (by rw [hc]; exact Bool.false_ne_true), hv]

/-! ### What goes wrong -/

/-- C145, refuted: an item with an empty description ends the program: the null pointer is given to strchr. -/
theorem empty_description (date : Bytes → Int) (s : St) (it : Item) (x : Txt) (hx : x.Ok) (h0 : x.t = []) (hs : s.cur = some it) (es : List Event) :
    run date s (element (lit "description") x ++ es) = none := by
  unfold element
  rw [List.cons_append, List.append_assoc, run_cons (start_plain _ _ _ _ (by decide +kernel) (by decide +kernel) (by decide +kernel) (by decide +kernel)), run_text date _ x hx _ rfl]
  rw [List.singleton_append, run]
  have : step date { { s with text := [] } with text := x.t } (.stop (lit "description")) = none := by
    rw [step]
    unfold endElement
    rw [hs]
    dsimp only
    rw [if_neg (by decide +kernel), if_neg (by rw [Bool.and_eq_true]; intro g; exact absurd g.1 (by decide +kernel)), if_neg (by decide +kernel), if_pos rfl, if_pos h0]
  rw [this]

/-- C145, refuted: so does an enclosure or an attribute without any attributes. -/
theorem no_attributes (date : Bytes → Int) (s : St) (it : Item) (hs : s.cur = some it) (name : Bytes) (h : name = lit "enclosure" ∨ name = lit "newznab:attr" ∨ name = lit "nZEDb:attr")
    (es : List Event) : run date s (.start name [] :: es) = none := by
  have : step date s (.start name []) = none := by
    rw [step]
    unfold startElement
    rw [hs]
    rcases h with h | h | h <;> subst h
    · rw [if_neg (by decide +kernel)]; rfl
    · rw [if_neg (by decide +kernel)]; dsimp only; rw [if_neg (by decide +kernel), if_pos (by decide +kernel)]
    · rw [if_neg (by decide +kernel)]; dsimp only; rw [if_neg (by decide +kernel), if_pos (by decide +kernel)]
  rw [run, this]

/-- C145, refuted: a title with only one quotation mark, at its end, is read behind its end. -/
theorem quote_at_end (a : Bytes) (ha : (34 : UInt8) ∉ a) : parseSubject (a ++ [34]) = none := by
  unfold parseSubject
  rw [cutAt_first [] ha]

/-- C145, refuted: blanks around a reference in a text are lost, because each piece of the text is trimmed: the title `Tom &amp; Jerry` is given in three pieces. -/
theorem blanks_lost (date : Bytes → Int) : (parse date [.start (lit "item") [], .start (lit "title") [], .chars (lit "Tom "), .chars (lit "&"), .chars (lit " Jerry"), .stop (lit "title"),
    .stop (lit "item")]).map (List.map Item.title) = some [some (lit "Tom&Jerry")] := by rfl

/-- C145, refuted: elements of the channel behind the items change the last item. -/
theorem behind_items (date : Bytes → Int) (s : St) (it : Item) (hs : s.cur = some it) (x : Txt) (hx : x.Ok) (hp : (34 : UInt8) ∉ x.t) :
    ∃ s', run date s (.stop (lit "item") :: element (lit "title") x) = some s' ∧ s'.all = s.items ++ [{ it with title := some x.t, filename := some x.t }] := by
  obtain ⟨items, cur, tx⟩ := s
  cases hs
  rw [run_cons (end_plain _ _ _ (by simp))]
  obtain ⟨t, e⟩ := run_field date (.title x) ⟨hx, by rw [filename_plain _ hp]; rfl⟩ items it tx []
  rw [List.append_nil] at e
  refine ⟨_, e, ?_⟩
  show items ++ _ = _
  simp only [apply, filename_plain _ hp]
  rfl

/-- C145, refuted: an enclosure with length 0 behind the attribute `size` discards the size. -/
theorem size_lost (date : Bytes → Int) :
    (parse date (feedEvents [] [[.attr (lit "newznab:attr") (lit "size") (lit "100"), .enclosure (lit "u") 0]])).map (List.map Item.size) = some [0] ∧
    (parse date (feedEvents [] [[.enclosure (lit "u") 0, .attr (lit "newznab:attr") (lit "size") (lit "100")]])).map (List.map Item.size) = some [100] := by
  constructor <;> rfl

/-! ### Examples -/

example : parseSubject (lit "[1/5] - \"Show.S01.par2\" yEnc") = some (lit "Show.S01") := by decide +kernel
example : (parse (fun _ => 5) (feedEvents [.title ⟨[], lit "Indexer", []⟩] [[.title ⟨[10], lit "A b", [32]⟩, .link ⟨[], lit "http://x", []⟩, .attr (lit "newznab:attr") (lit "size") (lit "7")],
    [.title ⟨[], lit "B", []⟩, .enclosure (lit "http://y") 9, .pubDate ⟨[], lit "now", []⟩]])).map (List.map (fun i => (i.title, i.url, i.size, i.time))) =
    some [(some (lit "A b"), some (lit "http://x"), 7, 0), (some (lit "B"), some (lit "http://y"), 9, 5)] := by decide +kernel
example : (Field.title ⟨[10], lit "A b", [32]⟩).Ok ∧ (Field.enclosure (lit "http://y") 9).Ok ∧ (Field.description ⟨[], lit "<b>x</b>", []⟩).Ok := by
  refine ⟨⟨⟨by decide +kernel, by decide +kernel, Or.inr ⟨⟨65, lit " b", by decide +kernel, by decide +kernel⟩, ⟨98, lit "A ", by decide +kernel, by decide +kernel⟩⟩⟩, by decide +kernel⟩,
    ⟨by decide, lit "http://y", by decide +kernel, by decide +kernel⟩, ⟨by decide +kernel, by decide +kernel, Or.inr ⟨⟨60, lit "b>x</b>", by decide +kernel, by decide +kernel⟩, ⟨62, lit "<b>x</b", by decide +kernel, by decide +kernel⟩⟩⟩, by decide +kernel, by decide +kernel⟩

end Verif.FeedParse
