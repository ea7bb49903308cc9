import Verif.AddNzb
/-! C108: which files of a collection are downloaded, and where in the queue it is placed. -/
namespace Verif.AddNzb
open CStr

/-! ### Files of the same name -/

theorem isDupe_iff (fs : List File) (i : Nat) (f : File) : isDupe fs i f = true ↔
    ∃ j g, fs[j]? = some g ∧ j ≠ i ∧ f.name = g.name ∧ (f.size < g.size ∨ f.size = g.size ∧ j < i) ∧ count fs g.name = 2 := by
  unfold isDupe
  rw [List.any_eq_true]
  constructor
  · rintro ⟨⟨g, j⟩, hm, h⟩
    simp only [Bool.and_eq_true, Bool.or_eq_true, bne_iff_ne, ne_eq, beq_iff_eq, decide_eq_true_eq] at h
    exact ⟨j, g, List.mem_zipIdx_iff_getElem?.1 hm, h.1.1.1, h.1.1.2, h.1.2, h.2⟩
  · rintro ⟨j, g, hm, h1, h2, h3, h4⟩
    refine ⟨(g, j), List.mem_zipIdx_iff_getElem?.2 hm, ?_⟩
    simp only [Bool.and_eq_true, Bool.or_eq_true, bne_iff_ne, ne_eq, beq_iff_eq, decide_eq_true_eq]
    exact ⟨⟨⟨h1, h2⟩, h3⟩, h4⟩

/-- Nothing is reordered and nothing is added. -/
theorem kept_sublist (fs : List File) : (kept fs).Sublist fs := by
  unfold kept
  have := (List.filter_sublist (p := fun p : File × Nat => !isDupe fs p.2 p.1) (l := fs.zipIdx)).map (·.1)
  rwa [List.zipIdx_map_fst] at this

theorem filter_name (fs : List File) (n : Bytes) : (kept fs).filter (fun f => f.name == n) =
    (fs.zipIdx.filter (fun p => p.1.name == n && !isDupe fs p.2 p.1)).map (·.1) := by
  unfold kept
  rw [List.filter_map, List.filter_filter]
  rfl

/-- C108: the files whose name occurs once, or more than twice, are all kept. -/
theorem others_kept (fs : List File) (n : Bytes) (h : count fs n ≠ 2) :
    (kept fs).filter (fun f => f.name == n) = fs.filter (fun f => f.name == n) := by
  rw [filter_name, show (fs.zipIdx.filter (fun p => p.1.name == n && !isDupe fs p.2 p.1)) = fs.zipIdx.filter ((fun f => f.name == n) ∘ (·.1)) from ?_]
  · rw [← List.filter_map, List.zipIdx_map_fst]
  · apply List.filter_congr
    rintro ⟨f, i⟩ _
    show (f.name == n && !isDupe fs i f) = (f.name == n)
    by_cases e : f.name = n
    · have : isDupe fs i f = false := by
        rw [← Bool.not_eq_true, isDupe_iff]
        rintro ⟨j, g, _, _, h2, _, h4⟩
        rw [← h2, e] at h4
        exact h h4
      rw [this, Bool.not_false, Bool.and_true]
    · rw [show (f.name == n) = false by simpa using e, Bool.false_and]

theorem count_append (a b : List File) (n : Bytes) : count (a ++ b) n = count a n + count b n := by
  unfold count
  rw [List.filter_append, List.length_append]

theorem count_zero {a : List File} {n : Bytes} (h : ∀ x ∈ a, x.name ≠ n) : count a n = 0 := by
  unfold count
  rw [List.length_eq_zero_iff, List.filter_eq_nil_iff]
  intro x hx
  simpa using h x hx

theorem count_cons (f : File) (a : List File) (n : Bytes) : count (f :: a) n = (if f.name = n then 1 else 0) + count a n := by
  unfold count
  rw [List.filter_cons]
  by_cases e : f.name = n
  · rw [if_pos (by simpa using e), if_pos e, List.length_cons]; omega
  · rw [if_neg (by simpa using e), if_neg e]; omega

/-- C108: of two files of the same name the bigger one is kept, and the first one if they are equal. -/
theorem bigger_kept (a b c : List File) (f g : File) (hn : f.name = g.name) (ha : ∀ x ∈ a, x.name ≠ f.name) (hb : ∀ x ∈ b, x.name ≠ f.name)
    (hc : ∀ x ∈ c, x.name ≠ f.name) :
    (kept (a ++ f :: (b ++ g :: c))).filter (fun x => x.name == f.name) = [if f.size < g.size then g else f] := by
  generalize hfs : a ++ f :: (b ++ g :: c) = fs
  have hcount : count fs f.name = 2 := by
    rw [← hfs, count_append, count_cons, count_append, count_cons, if_pos rfl, if_pos hn.symm, count_zero ha, count_zero hb, count_zero hc]
  have hf : fs[a.length]? = some f := by rw [← hfs]; simp
  have hg : fs[a.length + 1 + b.length]? = some g := by
    rw [← hfs, List.getElem?_append_right (by omega), show a.length + 1 + b.length - a.length = b.length + 1 by omega, List.getElem?_cons_succ,
      List.getElem?_append_right (Nat.le_refl _), Nat.sub_self]
    rfl
  have hplaces : ∀ j x, fs[j]? = some x → x.name = f.name → (j = a.length ∧ x = f) ∨ (j = a.length + 1 + b.length ∧ x = g) := by
    intro j x hx hxn
    by_cases h1 : j = a.length
    · rw [h1, hf] at hx; exact Or.inl ⟨h1, (Option.some.inj hx).symm⟩
    · by_cases h2 : j = a.length + 1 + b.length
      · rw [h2, hg] at hx; exact Or.inr ⟨h2, (Option.some.inj hx).symm⟩
      · exfalso
        rw [← hfs] at hx
        by_cases h3 : j < a.length
        · rw [List.getElem?_append_left h3] at hx
          exact ha x (List.mem_of_getElem? hx) hxn
        · rw [List.getElem?_append_right (by omega), show j - a.length = (j - a.length - 1) + 1 by omega, List.getElem?_cons_succ] at hx
          by_cases h4 : j - a.length - 1 < b.length
          · rw [List.getElem?_append_left h4] at hx
            exact hb x (List.mem_of_getElem? hx) hxn
          · rw [List.getElem?_append_right (by omega), show j - a.length - 1 - b.length = (j - a.length - 1 - b.length - 1) + 1 by omega,
              List.getElem?_cons_succ] at hx
            exact hc x (List.mem_of_getElem? hx) hxn
  have df : isDupe fs a.length f = decide (f.size < g.size) := by
    rw [Bool.eq_iff_iff, isDupe_iff, decide_eq_true_eq]
    constructor
    · rintro ⟨j, x, hx, hj, h2, h3, _⟩
      rcases hplaces j x hx h2.symm with ⟨h, _⟩ | ⟨h, rfl⟩
      · exact absurd h hj
      · rcases h3 with h3 | h3
        · exact h3
        · omega
    · intro h
      exact ⟨_, g, hg, by omega, hn, Or.inl h, by rw [← hn]; exact hcount⟩
  have dg : isDupe fs (a.length + 1 + b.length) g = !decide (f.size < g.size) := by
    rw [Bool.eq_iff_iff, isDupe_iff, Bool.not_eq_true', decide_eq_false_iff_not]
    constructor
    · rintro ⟨j, x, hx, hj, h2, h3, _⟩
      rcases hplaces j x hx (by rw [← h2, hn]) with ⟨_, rfl⟩ | ⟨h, _⟩
      · omega
      · exact absurd h hj
    · intro h
      refine ⟨_, f, hf, by omega, hn.symm, ?_, hcount⟩
      omega
  rw [filter_name]
  have hz : fs.zipIdx = a.zipIdx ++ (f, a.length) :: (b.zipIdx (a.length + 1) ++ (g, a.length + 1 + b.length) :: c.zipIdx (a.length + 1 + b.length + 1)) := by
    rw [← hfs, List.zipIdx_append, List.zipIdx_cons, List.zipIdx_append, List.zipIdx_cons]
    simp only [Nat.zero_add]
  have hnil : ∀ (l : List File) (k : Nat), (∀ x ∈ l, x.name ≠ f.name) →
      (l.zipIdx k).filter (fun p => p.1.name == f.name && !isDupe fs p.2 p.1) = [] := by
    intro l k hl
    rw [List.filter_eq_nil_iff]
    rintro ⟨x, i⟩ hx
    have hm : x ∈ l := by
      have : (x, i).1 ∈ (l.zipIdx k).map (·.1) := List.mem_map_of_mem hx
      rwa [List.zipIdx_map_fst] at this
    have : (x.name == f.name) = false := by simpa using hl x hm
    rw [this]
    exact Bool.false_ne_true
  rw [hz, List.filter_append, hnil a 0 ha, List.nil_append, List.filter_cons, List.filter_append, hnil b _ hb, List.nil_append, List.filter_cons,
    hnil c _ hc]
  have e1 : (f.name == f.name) = true := by simp
  have e2 : (g.name == f.name) = true := by simp [hn]
  simp only [df, dg, e1, e2, Bool.true_and, Bool.not_not]
  by_cases h : f.size < g.size
  · simp [h]
  · simp [h]

theorem first_split (n : Bytes) (k : Nat) : ∀ (fs : List File), count fs n = k + 1 →
    ∃ a f c, fs = a ++ f :: c ∧ f.name = n ∧ (∀ x ∈ a, x.name ≠ n) ∧ count c n = k
  | [], h => by simp [count] at h
  | x :: fs, h => by
    rw [count_cons] at h
    by_cases e : x.name = n
    · rw [if_pos e] at h
      exact ⟨[], x, fs, rfl, e, (fun _ h => nomatch h), by omega⟩
    · rw [if_neg e, Nat.zero_add] at h
      obtain ⟨a, f, c, rfl, h1, h2, h3⟩ := first_split n k fs h
      refine ⟨x :: a, f, c, rfl, h1, fun y hy => ?_, h3⟩
      rcases List.mem_cons.1 hy with rfl | hy
      · exact e
      · exact h2 y hy

theorem count_none {c : List File} {n : Bytes} (h : count c n = 0) : ∀ x ∈ c, x.name ≠ n := by
  unfold count at h
  rw [List.length_eq_zero_iff, List.filter_eq_nil_iff] at h
  intro x hx e
  exact h x hx (by simpa using e)

/-- A name which occurs twice: `bigger_kept` speaks about all such names. -/
theorem twice_split (fs : List File) (n : Bytes) (h : count fs n = 2) : ∃ a f b g c, fs = a ++ f :: (b ++ g :: c) ∧ f.name = n ∧ g.name = n ∧
    (∀ x ∈ a, x.name ≠ n) ∧ (∀ x ∈ b, x.name ≠ n) ∧ (∀ x ∈ c, x.name ≠ n) := by
  obtain ⟨a, f, r, rfl, h1, h2, h3⟩ := first_split n 1 fs h
  obtain ⟨b, g, c, rfl, h4, h5, h6⟩ := first_split n 0 r h3
  exact ⟨a, f, b, g, c, rfl, h1, h4, h2, h5, count_none h6⟩

/-- C108: of every name there is still a file. -/
theorem no_name_lost (fs : List File) (f : File) (hf : f ∈ fs) : ∃ g ∈ kept fs, g.name = f.name := by
  have : (kept fs).filter (fun x => x.name == f.name) ≠ [] := by
    by_cases h : count fs f.name = 2
    · obtain ⟨a, x, b, y, c, rfl, h1, h2, ha, hb, hc⟩ := twice_split fs f.name h
      rw [← h1] at ha hb hc ⊢
      rw [bigger_kept a b c x y (h1.trans h2.symm) ha hb hc]
      simp
    · rw [others_kept fs _ h]
      intro e
      rw [List.filter_eq_nil_iff] at e
      exact e f hf (by simp)
  obtain ⟨g, hg⟩ := List.exists_mem_of_ne_nil _ this
  rw [List.mem_filter] at hg
  exact ⟨g, hg.1, by simpa using hg.2⟩

theorem split_sum (p : File × Nat → Bool) (w : File → Int) : ∀ (l : List (File × Nat)),
    ((l.filter (fun x => !p x)).map (fun x => w x.1)).sum = (l.map (fun x => w x.1)).sum - ((l.filter p).map (fun x => w x.1)).sum
  | [] => rfl
  | x :: l => by
    have ih := split_sum p w l
    rw [List.filter_cons, List.filter_cons]
    cases h : p x with
    | true =>
      rw [if_neg (by simp), if_pos rfl, List.map_cons, List.map_cons, List.sum_cons, List.sum_cons, ih]; omega
    | false =>
      rw [if_pos (by simp), if_neg Bool.false_ne_true, List.map_cons, List.map_cons, List.sum_cons, List.sum_cons, ih]; omega

/-- The counters of an entry are those of its files. -/
def Counted (e : Entry) : Prop := e.fileCount = e.files.length ∧ e.size = (e.files.map (fun f => (f.size : Int))).sum

/-- C108: the counters are those of the files which are kept. -/
theorem counters_kept (server : Bool) (e : Entry) (h : Counted e) : Counted (checkFiles server e).1 := by
  have key : ∀ w : File → Int, ((kept e.files).map w).sum = (e.files.map w).sum - ((dupes e.files).map w).sum := by
    intro w
    have := split_sum (fun p => isDupe e.files p.2 p.1) w e.files.zipIdx
    unfold kept dupes
    rw [List.map_map, List.map_map]
    refine this.trans ?_
    have h2 : e.files.zipIdx.map (fun x => w x.1) = e.files.map w := by
      rw [show (fun x : File × Nat => w x.1) = w ∘ (·.1) from rfl, ← List.map_map, List.zipIdx_map_fst]
    rw [h2]
    rfl
  have hlen : ∀ l : List File, (l.map (fun _ => (1 : Int))).sum = l.length := by
    intro l
    induction l with
    | nil => rfl
    | cons x l ih => rw [List.map_cons, List.sum_cons, ih, List.length_cons]; omega
  constructor
  · show e.fileCount - _ = ((kept e.files).length : Int)
    have := key (fun _ => 1)
    rw [hlen, hlen, hlen] at this
    rw [this, h.1]
  · show e.size - _ = ((kept e.files).map _).sum
    rw [key, h.2]

/-! ### The place in the queue -/

/-- What is added: without the files which are left out. -/
def toAdd (o : Opts) (force : Bool) (nzb : Entry) (id : Nat) : Entry :=
  { (if o.dupeCheck = true ∧ force = false then (checkFiles o.server nzb).1 else nzb) with id := id }

theorem toAdd_eq (o : Opts) (force : Bool) (nzb : Entry) (id : Nat) :
    { (if o.dupeCheck && !force then checkFiles o.server nzb else (nzb, false)).1 with id := id } = toAdd o force nzb id := by
  unfold toAdd
  cases o.dupeCheck <;> cases force <;> rfl

/-- C108: a collection is added at the begin or at the end of the queue; the rest of the queue and the history do not change. -/
theorem added_direct (o : Opts) (force avoid : Bool) (nzb : Entry) (first : Bool) (s : State) :
    (add o .none force avoid nzb none first s).state =
      ⟨if first = true then toAdd o force nzb nzb.id :: s.queue else s.queue ++ [toAdd o force nzb nzb.id], s.history⟩ ∧
    (add o .none force avoid nzb none first s).added = some nzb.id := by
  unfold add
  rw [if_pos rfl]
  refine ⟨?_, rfl⟩
  dsimp only
  rw [show (none : Option Nat).getD nzb.id = nzb.id from rfl, toAdd_eq]

theorem insert_remove (u : Nat) (e x : Entry) (b : List Entry) (hx : x.isUrl = true ∧ x.id = u) (he : e.isUrl = false) : ∀ (a : List Entry),
    (∀ y ∈ a, ¬ (y.isUrl = true ∧ y.id = u)) → removeUrl u (insertAt u e (a ++ x :: b)) = a ++ e :: b ∧ removeUrl u (a ++ x :: b) = a ++ b
  | [], _ => by
    have h1 : (x.isUrl && x.id == u) = true := by simp [hx.1, hx.2]
    have h2 : (e.isUrl && e.id == u) = false := by simp [he]
    refine ⟨?_, ?_⟩
    · rw [List.nil_append, insertAt, if_pos h1, removeUrl, if_neg (by rw [h2]; exact Bool.false_ne_true), removeUrl, if_pos h1]
      rfl
    · rw [List.nil_append, removeUrl, if_pos h1]
      rfl
  | y :: a, h => by
    have h1 : ¬ (y.isUrl && y.id == u) = true := by
      have := h y List.mem_cons_self
      simpa using this
    obtain ⟨i1, i2⟩ := insert_remove u e x b hx he a (fun z hz => h z (List.mem_cons_of_mem _ hz))
    refine ⟨?_, ?_⟩
    · rw [List.cons_append, insertAt, if_neg h1, removeUrl, if_neg h1, i1]; rfl
    · rw [List.cons_append, removeUrl, if_neg h1, i2]; rfl

/-- C108: a collection which was fetched from a URL takes the place of the URL in the queue and its number; the rest of the queue and
the history do not change. -/
theorem added_from_url (o : Opts) (force avoid : Bool) (nzb : Entry) (first : Bool) (a b : List Entry) (x : Entry) (hist : List Nat)
    (hn : nzb.isUrl = false) (hx : x.isUrl = true) (ha : ∀ y ∈ a, y.id ≠ x.id) :
    (add o .none force avoid nzb (some x.id) first ⟨a ++ x :: b, hist⟩).state = ⟨a ++ toAdd o force nzb x.id :: b, hist⟩ ∧
    (add o .none force avoid nzb (some x.id) first ⟨a ++ x :: b, hist⟩).added = some x.id := by
  unfold add
  rw [if_pos rfl]
  refine ⟨?_, rfl⟩
  dsimp only
  rw [show (some x.id).getD nzb.id = x.id from rfl, toAdd_eq]
  have ht : (toAdd o force nzb x.id).isUrl = false := by
    unfold toAdd checkFiles
    split <;> exact hn
  rw [(insert_remove x.id (toAdd o force nzb x.id) x b ⟨hx, rfl⟩ ht a (fun y hy h => ha y hy h.2)).1]

theorem insert_end (u : Nat) (e : Entry) (he : e.isUrl = false) : ∀ (q : List Entry), (∀ y ∈ q, ¬ (y.isUrl = true ∧ y.id = u)) → removeUrl u (insertAt u e q) = q ++ [e]
  | [], _ => by
    have h2 : ¬ (e.isUrl && e.id == u) = true := by simp [he]
    rw [insertAt, removeUrl, if_neg h2]
    rfl
  | y :: q, h => by
    have h1 : ¬ (y.isUrl && y.id == u) = true := by
      have := h y List.mem_cons_self
      simpa using this
    rw [insertAt, if_neg h1, removeUrl, if_neg h1, insert_end u e he q (fun z hz => h z (List.mem_cons_of_mem _ hz))]
    rfl

/-- C108: if the URL is not in the queue any more, the collection which was fetched from it is the last entry. -/
theorem url_gone (o : Opts) (force avoid : Bool) (nzb : Entry) (first : Bool) (u : Nat) (s : State) (hn : nzb.isUrl = false) (h : ∀ y ∈ s.queue, ¬ (y.isUrl = true ∧ y.id = u)) :
    (add o .none force avoid nzb (some u) first s).state = ⟨s.queue ++ [toAdd o force nzb u], s.history⟩ := by
  unfold add
  rw [if_pos rfl]
  dsimp only
  rw [show (some u).getD nzb.id = u from rfl, toAdd_eq]
  have ht : (toAdd o force nzb u).isUrl = false := by
    unfold toAdd checkFiles
    split <;> exact hn
  rw [insert_end u _ ht s.queue h]

/-- C108: what the duplicate check refuses is not in the queue. It is the newest entry of the history, under the number which was known,
unless it is dropped without a trace; a URL it came from is not in the queue any more. The rest does not change. -/
theorem refused (o : Opts) (found : Del) (hf : found ≠ .none) (force avoid : Bool) (nzb : Entry) (first : Bool) (s : State) :
    (add o found force avoid nzb none first s).state.queue = s.queue ∧
    (∀ a x b, s.queue = a ++ x :: b → x.isUrl = true → (∀ y ∈ a, y.id ≠ x.id) →
      (add o found force avoid nzb (some x.id) first s).state.queue = a ++ b) ∧
    (∀ url : Option Nat, (found = .manual ∨ found = .health ∨ found = .bad ∨ o.keepHistory = false ∨ avoid = true →
        (add o found force avoid nzb url first s).state.history = s.history ∧ (add o found force avoid nzb url first s).added = none) ∧
      (found ≠ .manual → found ≠ .health → found ≠ .bad → o.keepHistory = true → avoid = false →
        (add o found force avoid nzb url first s).state.history = url.getD nzb.id :: s.history ∧
        (add o found force avoid nzb url first s).added = some (url.getD nzb.id))) := by
  refine ⟨?_, fun a x b e hx ha => ?_, fun url => ⟨fun h => ?_, fun h1 h2 h3 h4 h5 => ?_⟩⟩
  · unfold add
    rw [if_neg hf]
    dsimp only
    split <;> rfl
  · have h := (insert_remove x.id { nzb with isUrl := false } x b ⟨hx, rfl⟩ rfl a (fun y hy h => ha y hy h.2)).2
    unfold add
    rw [if_neg hf]
    dsimp only
    rw [e, h]
    split <;> rfl
  · have hc : (completes found && o.keepHistory && !avoid) = false := by
      rcases h with rfl | rfl | rfl | h | h
      · rfl
      · rfl
      · rfl
      · rw [h, Bool.and_false, Bool.false_and]
      · rw [h, Bool.not_true, Bool.and_false]
    unfold add
    rw [if_neg hf]
    dsimp only
    rw [hc]
    exact ⟨rfl, rfl⟩
  · have hc : (completes found && o.keepHistory && !avoid) = true := by
      rw [h4, h5]
      cases found <;> first | rfl | exact absurd rfl hf | exact absurd rfl h1 | exact absurd rfl h2 | exact absurd rfl h3
    unfold add
    rw [if_neg hf]
    dsimp only
    rw [hc]
    exact ⟨rfl, rfl⟩

/-! ### Where the code is wrong -/

theorem dupes_isEmpty (fs : List File) : (dupes fs).isEmpty = true ↔ kept fs = fs := by
  have h : (dupes fs).length + (kept fs).length = fs.length := by
    unfold dupes kept
    rw [List.length_map, List.length_map]
    have : ∀ l : List (File × Nat), (l.filter (fun p => isDupe fs p.2 p.1)).length + (l.filter (fun p => !isDupe fs p.2 p.1)).length = l.length := by
      intro l
      induction l with
      | nil => rfl
      | cons x l ih =>
        rw [List.filter_cons, List.filter_cons]
        cases isDupe fs x.2 x.1 with
        | true => rw [if_pos rfl, if_neg (by simp), List.length_cons, List.length_cons]; omega
        | false => rw [if_neg Bool.false_ne_true, if_pos (by rfl), List.length_cons, List.length_cons]; omega
    rw [this, List.length_zipIdx]
  rw [List.isEmpty_iff]
  constructor
  · intro e
    rw [e, List.length_nil, Nat.zero_add] at h
    exact (kept_sublist fs).eq_of_length h
  · intro e
    rw [e] at h
    exact List.length_eq_zero_iff.1 (by omega)

/-- C108, the other way round: memory which was freed is read exactly when the server leaves out a file of a new collection, and whenever
a collection which is refused is not kept in the history. -/
theorem freed_memory (o : Opts) (found : Del) (force avoid : Bool) (nzb : Entry) (url : Option Nat) (first : Bool) (s : State) :
    (add o found force avoid nzb url first s).freed = true ↔
      (found = .none ∧ o.dupeCheck = true ∧ force = false ∧ o.server = true ∧ kept nzb.files ≠ nzb.files) ∨
      (found ≠ .none ∧ (add o found force avoid nzb url first s).added = none) := by
  unfold add
  by_cases h : found = .none
  · rw [if_pos h]
    dsimp only
    have : ((if o.dupeCheck && !force then checkFiles o.server nzb else (nzb, false)).2 = true) ↔
        (o.dupeCheck = true ∧ force = false ∧ o.server = true ∧ kept nzb.files ≠ nzb.files) := by
      rw [ne_eq, ← dupes_isEmpty]
      unfold checkFiles
      cases o.dupeCheck <;> cases force <;> cases o.server <;> simp
    rw [this]
    constructor
    · intro g; exact Or.inl ⟨h, g⟩
    · rintro (g | g)
      · exact g.2
      · exact absurd h g.1
  · rw [if_neg h]
    dsimp only
    cases completes found && o.keepHistory && !avoid with
    | true =>
      rw [if_pos rfl]
      constructor
      · intro g; exact nomatch g
      · rintro (g | g)
        · exact absurd g.1 h
        · exact nomatch g.2
    | false =>
      rw [if_neg Bool.false_ne_true]
      exact ⟨fun _ => Or.inr ⟨h, rfl⟩, fun _ => rfl⟩

/-! ### Examples -/

def ex : Entry := ⟨9, false, [⟨1, lit "a", 5⟩, ⟨2, lit "b", 7⟩, ⟨3, lit "a", 6⟩, ⟨4, lit "c", 1⟩, ⟨5, lit "c", 1⟩, ⟨6, lit "d", 1⟩, ⟨7, lit "d", 2⟩, ⟨8, lit "d", 2⟩], 8, 25⟩

example : Counted ex := by unfold Counted; decide
example : (kept ex.files).map (·.id) = [2, 3, 4, 6, 7, 8] := by decide +kernel
example : (checkFiles true ex).1.size = 19 ∧ (checkFiles true ex).1.fileCount = 6 := by decide +kernel
example : (add ⟨true, true, true⟩ .none false false ex (some 2) false ⟨[⟨1, false, [], 0, 0⟩, ⟨2, true, [], 0, 0⟩, ⟨3, true, [], 0, 0⟩], [4]⟩).state.queue.map (fun e => (e.id, e.isUrl))
    = [(1, false), (2, false), (3, true)] := by decide +kernel
-- a duplicate from a feed which is in the queue already
example : add ⟨true, true, true⟩ .manual false false ex (some 2) false ⟨[⟨2, true, [], 0, 0⟩], [4]⟩ = ⟨⟨[], [4]⟩, none, true⟩ := by decide +kernel

end Verif.AddNzb
