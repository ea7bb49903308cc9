import Verif.SaveConfProps
import Verif.TaskDefProps
/-! C107: the scripts of earlier versions' options become extensions. -/
namespace Verif.SaveConf
open CStr OptStore FeedFilter

/-- The separators of lists of scripts: comma and semicolon. -/
def listSep (b : UInt8) : Bool := b == 44 || b == 59

/-- The list of scripts has the script; the case does not matter. -/
def Has (list s : Bytes) : Prop := ∃ t, Tokens.IsToken listSep list t ∧ Same t s

/-- No script is listed twice. -/
def Distinct (list : Bytes) : Prop := (Tokens.tokens listSep list).Pairwise (fun a b => ¬ Same a b)

/-- A list with scripts appended: nothing is lost, it has what was there and what was appended, and nothing twice. -/
def Extended (v v' : Bytes) (ws : List Bytes) : Prop :=
  v <+: v' ∧ (∀ s, Has v' s ↔ Has v s ∨ ∃ w ∈ ws, Same w s) ∧ (Distinct v → Distinct v')

theorem hasScript_iff (list s : Bytes) : hasScript list s = true ↔ Has list s := by
  unfold hasScript Has
  rw [List.any_eq_true]
  constructor
  · rintro ⟨t, h1, h2⟩; exact ⟨t, (Tokens.mem_tokens _ _ _).1 h1, (same_iff _ _).1 h2⟩
  · rintro ⟨t, h1, h2⟩; exact ⟨t, (Tokens.mem_tokens _ _ _).2 h1, (same_iff _ _).2 h2⟩

theorem sep_eq : sep = listSep := rfl

theorem pieces_append (c : UInt8) (hc : listSep c = true) (s : Bytes) : ∀ (v cur : Bytes),
    Tokens.pieces listSep cur (v ++ c :: s) = Tokens.pieces listSep cur v ++ Tokens.pieces listSep [] s
  | [], cur => by simp [Tokens.pieces, hc]
  | x :: v, cur => by
    rw [List.cons_append, Tokens.pieces, Tokens.pieces]
    split
    · rw [pieces_append c hc s v, List.append_assoc]
    · exact pieces_append c hc s v _

theorem tokens_append (v s : Bytes) : Tokens.tokens listSep (v ++ 44 :: s) = Tokens.tokens listSep v ++ Tokens.tokens listSep s := by
  unfold Tokens.tokens
  rw [pieces_append 44 (by decide), List.map_append, List.filter_append]

/-- A token is a list of itself only. -/
theorem tokens_token {list s : Bytes} (h : s ∈ Tokens.tokens listSep list) : Tokens.tokens listSep s = [s] := by
  obtain ⟨p, ⟨a, c, _, hp, hsep, _⟩, hst, hne⟩ := (Tokens.mem_tokens _ _ _).1 h
  have hs : ∀ x ∈ s, listSep x = false := by
    obtain ⟨x, y, e, _⟩ := hst
    intro b hb
    have := hsep b (by rw [e]; simp [hb])
    simpa using this
  have h1 : ∀ (t cur : Bytes), (∀ x ∈ t, listSep x = false) → Tokens.pieces listSep cur t = if cur.reverse ++ t = [] then [] else [cur.reverse ++ t] := by
    intro t
    induction t with
    | nil =>
      intro cur _
      rw [Tokens.pieces, List.append_nil]
      by_cases e : cur = []
      · rw [if_pos e, if_pos (by rw [e]; rfl)]
      · rw [if_neg e, if_neg (by rw [List.reverse_eq_nil_iff]; exact e)]
    | cons x t ih =>
      intro cur hx
      rw [Tokens.pieces, if_neg (by rw [hx x List.mem_cons_self]; exact Bool.false_ne_true),
        ih _ (fun y hy => hx y (List.mem_cons_of_mem _ hy))]
      simp
  unfold Tokens.tokens
  rw [h1 s [] hs, List.reverse_nil, List.nil_append, if_neg hne]
  have ht : trim s = s := by
    obtain ⟨x, y, e, hx, hy, h1, h2⟩ := hst
    exact stripped_unique (trim_stripped s) ⟨[], [], by simp, by simp, by simp, h1, h2⟩ hne
  simp [ht, hne]

theorem has_append {list s : Bytes} (h : s ∈ Tokens.tokens listSep list) (v t : Bytes) : Has (v ++ 44 :: s) t ↔ Has v t ∨ Same s t := by
  unfold Has
  simp only [← Tokens.mem_tokens]
  rw [tokens_append, tokens_token h]
  constructor
  · rintro ⟨x, hx, hs⟩
    rcases List.mem_append.1 hx with hx | hx
    · exact Or.inl ⟨x, hx, hs⟩
    · rw [List.mem_singleton.1 hx] at hs; exact Or.inr hs
  · rintro (⟨x, hx, hs⟩ | hs)
    · exact ⟨x, List.mem_append_left _ hx, hs⟩
    · exact ⟨s, List.mem_append_right _ (List.mem_singleton_self _), hs⟩

theorem has_same {v s t : Bytes} (h : Has v s) (g : Same s t) : Has v t := by
  obtain ⟨x, h1, h2⟩ := h
  exact ⟨x, h1, h2.trans g⟩

theorem not_has_nil (t : Bytes) : ¬ Has [] t := by
  rintro ⟨x, h, _⟩
  rw [← Tokens.mem_tokens] at h
  exact nomatch h

theorem extended_one {list s : Bytes} (h : s ∈ Tokens.tokens listSep list) (v : Bytes) :
    Extended v (addGlobal s v) [s] ∧ (v ≠ [] → Extended v (addCategory s v) [s]) := by
  have keep : Has v s → Extended v v [s] := by
    intro hs
    refine ⟨List.prefix_refl _, fun t => ⟨Or.inl, ?_⟩, id⟩
    rintro (g | ⟨w, hw, g⟩)
    · exact g
    · rw [List.mem_singleton.1 hw] at g; exact has_same hs g
  have app : ¬ Has v s → Extended v (v ++ 44 :: s) [s] := by
    intro hn
    refine ⟨List.prefix_append _ _, fun t => ?_, fun hd => ?_⟩
    · rw [has_append h]
      simp
    · unfold Distinct
      rw [tokens_append, tokens_token h, List.pairwise_append]
      refine ⟨hd, List.pairwise_singleton _ _, fun a ha b hb g => ?_⟩
      rw [List.mem_singleton.1 hb] at g
      exact hn ⟨a, (Tokens.mem_tokens _ _ _).1 ha, g⟩
  have alone : v = [] → Extended v s [s] := by
    rintro rfl
    refine ⟨List.nil_prefix, fun t => ?_, fun _ => by unfold Distinct; rw [tokens_token h]; exact List.pairwise_singleton _ _⟩
    unfold Has
    simp only [← Tokens.mem_tokens]
    rw [tokens_token h]
    constructor
    · rintro ⟨x, hx, hs⟩; exact Or.inr ⟨x, hx, hs⟩
    · rintro (⟨x, hx, _⟩ | g)
      · exact nomatch hx
      · exact g
  unfold addGlobal addCategory
  by_cases hs : hasScript v s = true
  · have hs' := (hasScript_iff v s).1 hs
    refine ⟨by rw [if_pos hs]; exact keep hs', fun _ => ?_⟩
    rw [if_pos (Or.inr hs)]; exact keep hs'
  · have app := app (fun g => hs ((hasScript_iff v s).2 g))
    rw [if_neg hs]
    refine ⟨?_, fun hv => ?_⟩
    · by_cases hv : v = []
      · rw [if_pos hv]; exact alone hv
      · rw [if_neg hv]; exact app
    · rw [if_neg (fun g => g.elim hv hs)]; exact app

theorem extended_cons {v v1 v2 s : Bytes} {ws : List Bytes} (h1 : Extended v v1 [s]) (h2 : Extended v1 v2 ws) : Extended v v2 (s :: ws) := by
  refine ⟨h1.1.trans h2.1, fun t => ?_, fun hd => h2.2.2 (h1.2.2 hd)⟩
  rw [h2.2.1, h1.2.1]
  simp only [List.mem_cons, List.not_mem_nil, or_false]
  constructor
  · rintro ((h | ⟨w, rfl, h⟩) | ⟨w, hw, h⟩)
    · exact Or.inl h
    · exact Or.inr ⟨_, Or.inl rfl, h⟩
    · exact Or.inr ⟨w, Or.inr hw, h⟩
  · rintro (h | ⟨w, rfl | hw, h⟩)
    · exact Or.inl (Or.inl h)
    · exact Or.inl (Or.inr ⟨_, rfl, h⟩)
    · exact Or.inr ⟨w, hw, h⟩

theorem extended_nil (v : Bytes) : Extended v v [] := ⟨List.prefix_refl _, fun _ => ⟨Or.inl, fun h => h.elim id (fun ⟨_, h, _⟩ => nomatch h)⟩, id⟩

theorem global_fold (list : Bytes) : ∀ (ws : List Bytes), (∀ w ∈ ws, w ∈ Tokens.tokens listSep list) → ∀ v,
    Extended v (ws.foldl (fun v s => addGlobal s v) v) ws
  | [], _, v => extended_nil v
  | w :: ws, h, v => extended_cons (extended_one (h w List.mem_cons_self) v).1
      (global_fold list ws (fun x hx => h x (List.mem_cons_of_mem _ hx)) _)

theorem category_fold (list : Bytes) : ∀ (ws : List Bytes), (∀ w ∈ ws, w ∈ Tokens.tokens listSep list) → ∀ v, v ≠ [] →
    Extended v (ws.foldl (fun v s => addCategory s v) v) ws
  | [], _, v, _ => extended_nil v
  | w :: ws, h, v, hv => by
    have h1 := (extended_one (h w List.mem_cons_self) v).2 hv
    refine extended_cons h1 (category_fold list ws (fun x hx => h x (List.mem_cons_of_mem _ hx)) _ ?_)
    intro e
    have := h1.1
    rw [e] at this
    exact hv (List.prefix_nil.1 this)

theorem category_empty : ∀ (ws : List Bytes), ws.foldl (fun v s => addCategory s v) [] = []
  | [] => rfl
  | w :: ws => by
    rw [List.foldl_cons, show addCategory w [] = [] from if_pos (Or.inl rfl)]
    exact category_empty ws

theorem modifyAt_get (f : Bytes → Bytes) : ∀ (i : Nat) (es : Entries) (j : Nat),
    (modifyAt f i es)[j]? = (es[j]?).map (fun x => if j = i then (x.1, f x.2) else x)
  | i, [], j => by simp [modifyAt]
  | 0, e :: es, 0 => by simp [modifyAt]
  | 0, e :: es, j + 1 => by simp [modifyAt]
  | i + 1, e :: es, 0 => by simp [modifyAt]
  | i + 1, e :: es, j + 1 => by simp [modifyAt, modifyAt_get f i es j]

/-- The value of one entry. -/
def stepAt (cats : Bool) (i j : Nat) (n v s : Bytes) : Bytes :=
  if (cats && isCategory n) = true then addCategory s (if j = i then addGlobal s v else v) else if j = i then addGlobal s v else v

theorem mergeScript_get (cats : Bool) (i : Nat) (es : Entries) (s : Bytes) (j : Nat) :
    (mergeScript cats i es s)[j]? = (es[j]?).map (fun x => (x.1, stepAt cats i j x.1 x.2 s)) := by
  unfold mergeScript stepAt
  cases cats with
  | false =>
    simp only [Bool.false_and, Bool.false_eq_true, if_false]
    rw [modifyAt_get]
    congr 1; funext x; split <;> rfl
  | true =>
    simp only [Bool.true_and, if_true]
    rw [List.getElem?_map, modifyAt_get, Option.map_map]
    congr 1; funext x
    show (if isCategory (if j = i then (x.1, addGlobal s x.2) else x).1 = true then _ else _) = _
    by_cases hj : j = i
    · simp only [if_pos hj]; split <;> rfl
    · simp only [if_neg hj]; split <;> rfl

theorem fold_get (cats : Bool) (i : Nat) (j : Nat) : ∀ (ws : List Bytes) (es : Entries),
    (ws.foldl (mergeScript cats i) es)[j]? = (es[j]?).map (fun x => (x.1, ws.foldl (stepAt cats i j x.1) x.2))
  | [], es => by simp
  | w :: ws, es => by
    rw [List.foldl_cons, fold_get cats i j ws, mergeScript_get, Option.map_map]
    rfl

/-- The option with the extensions of a category. -/
def CategoryList (n : Bytes) : Prop := ∃ ds : Bytes, (∀ b ∈ ds, 48 ≤ b.toNat ∧ b.toNat ≤ 57) ∧ Same n (lit "category" ++ ds ++ lit ".extensions")

theorem lower_digit : ∀ b : UInt8, (48 ≤ b.toNat ∧ b.toNat ≤ 57) → ∀ c : UInt8, WildMask.lower c = WildMask.lower b → c = b := by
  have : ∀ b : Fin 256, (48 ≤ b.1 ∧ b.1 ≤ 57) → ∀ c : Fin 256, WildMask.lower (UInt8.ofNat c.1) = WildMask.lower (UInt8.ofNat b.1) → c = b := by
    decide +kernel
  intro b hb c hc
  have := this ⟨b.toNat, b.toNat_lt⟩ hb ⟨c.toNat, c.toNat_lt⟩ (by simpa using hc)
  exact UInt8.toNat_inj.1 (congrArg Fin.val this)

theorem isCategory_iff (n : Bytes) : isCategory n = true ↔ CategoryList n := by
  unfold isCategory CategoryList afterNoCase
  by_cases h : Rpc.eqNoCase (n.take (lit "category").length) (lit "category") = true
  · rw [if_pos h]
    have hs := (same_iff _ _).1 h
    dsimp only
    rw [same_iff]
    constructor
    · intro g
      refine ⟨(n.drop (lit "category").length).takeWhile isNum, fun b hb => ?_, ?_⟩
      · have := List.all_eq_true.1 (List.all_takeWhile (p := isNum) (l := n.drop (lit "category").length)) b hb
        simpa [isNum] using this
      · unfold Same at *
        rw [List.map_append, List.map_append, ← hs, ← g, ← List.map_append, ← List.map_append, List.append_assoc,
          List.takeWhile_append_dropWhile, List.take_append_drop]
    · rintro ⟨ds, hd, g⟩
      have g' : n.map WildMask.lower = (lit "category").map WildMask.lower ++ (ds.map WildMask.lower ++ (lit ".extensions").map WildMask.lower) := by
        rw [g, List.map_append, List.map_append, List.append_assoc]
      have g2 : (n.drop (lit "category").length).map WildMask.lower = ds.map WildMask.lower ++ (lit ".extensions").map WildMask.lower := by
        rw [List.map_drop, g', List.drop_left' (by rw [List.length_map])]
      generalize n.drop (lit "category").length = r at g2
      clear g g' h hs
      induction ds generalizing r with
      | nil =>
        cases r with
        | nil => exact absurd g2 (by decide)
        | cons c r =>
          have hc : WildMask.lower c = WildMask.lower 46 := by
            exact (List.cons.inj (show WildMask.lower c :: r.map WildMask.lower = WildMask.lower 46 :: ((lit ".extensions").drop 1).map WildMask.lower from g2)).1
          have : isNum c = false := by
            have : ∀ c : Fin 256, WildMask.lower (UInt8.ofNat c.1) = WildMask.lower 46 → isNum (UInt8.ofNat c.1) = false := by decide +kernel
            have := this ⟨c.toNat, c.toNat_lt⟩ (by simpa using hc)
            simpa using this
          rw [List.dropWhile_cons_of_neg (by rw [this]; exact Bool.false_ne_true)]
          exact g2
      | cons d ds ih =>
        cases r with
        | nil => simp at g2
        | cons c r =>
          rw [List.map_cons, List.map_cons, List.cons_append] at g2
          obtain ⟨e1, e2⟩ := List.cons.inj g2
          have hd0 := hd d List.mem_cons_self
          obtain rfl := lower_digit d hd0 c e1
          rw [List.dropWhile_cons_of_pos (by simpa [isNum] using hd0)]
          exact ih (fun b hb => hd b (List.mem_cons_of_mem _ hb)) r e2
  · rw [if_neg h]
    constructor
    · intro g; exact nomatch g
    · rintro ⟨ds, hd, g⟩
      exfalso
      apply h
      rw [same_iff]
      unfold Same at *
      rw [List.map_take, g, List.append_assoc, List.map_append, List.take_left' (by rw [List.length_map])]

theorem extensions_no_category {n : Bytes} (h : Same n (lit "Extensions")) : isCategory n = false := by
  unfold isCategory afterNoCase
  rw [if_neg]
  intro g
  have g := (same_iff _ _).1 g
  unfold Same at g h
  rw [List.map_take, h] at g
  exact absurd g (by decide)

/-- The entries with the option Extensions, which is added if it is missing. -/
def withExtensions (es : Entries) : Entries :=
  if ∃ e ∈ es, Same e.1 (lit "Extensions") then es else es ++ [(lit "Extensions", [])]

theorem place_isSome (es : Entries) (n : Bytes) : (place es n).isNone = false ↔ ∃ e ∈ es, Same e.1 n := by
  unfold place
  rw [← Bool.not_eq_true, Option.isNone_iff_eq_none, List.findIdx?_eq_none_iff]
  constructor
  · intro h
    refine Classical.byContradiction fun g => h fun e he => ?_
    exact eqNoCase_false (fun hs => g ⟨e, he, hs⟩)
  · rintro ⟨e, he, hs⟩ g
    have := g e he
    rw [(same_iff _ _).2 hs] at this
    exact nomatch this

theorem unique_with (es : Entries) (hu : Unique es) : Unique (withExtensions es) := by
  unfold withExtensions
  split
  · exact hu
  · next h =>
    unfold Unique
    rw [List.pairwise_append]
    refine ⟨hu, List.pairwise_singleton _ _, fun a ha b hb => ?_⟩
    rw [List.mem_singleton.1 hb]
    exact fun g => h ⟨a, ha, g⟩

/-- C107: the scripts which an option of an earlier version lists become extensions, and extensions of the categories which have
extensions of their own if `cats` is set. Nothing is lost, nothing else changes, and no script is listed twice. -/
theorem old_scripts (es : Entries) (hu : Unique es) (opt : Bytes) (cats : Bool) (e : Bytes × Bytes) (he : e ∈ es) (hs : Same e.1 opt) (hv : e.2 ≠ []) :
    (mergeOld es opt cats).length = (withExtensions es).length ∧
    ∀ (j : Nat) (x : Bytes × Bytes), (withExtensions es)[j]? = some x →
      ∃ v, (mergeOld es opt cats)[j]? = some (x.1, v) ∧
        (Same x.1 (lit "Extensions") → Extended x.2 v (Tokens.tokens listSep e.2)) ∧
        (CategoryList x.1 → (cats = true ∧ x.2 ≠ [] → Extended x.2 v (Tokens.tokens listSep e.2)) ∧ (cats = false ∨ x.2 = [] → v = x.2)) ∧
        (¬ Same x.1 (lit "Extensions") → ¬ CategoryList x.1 → v = x.2) := by
  have hm : mergeOld es opt cats = (Tokens.tokens listSep e.2).foldl
      (mergeScript cats ((place (withExtensions es) (lit "Extensions")).getD 0)) (withExtensions es) := by
    unfold mergeOld
    rw [entry_place, entry_unique hu he hs]
    dsimp only
    rw [if_neg hv]
    have : (if (place es (lit "Extensions")).isNone = true then es ++ [(lit "Extensions", [])] else es) = withExtensions es := by
      unfold withExtensions
      by_cases h : ∃ e ∈ es, Same e.1 (lit "Extensions")
      · rw [if_pos h, (place_isSome es _).2 h, if_neg Bool.false_ne_true]
      · rw [if_neg h, if_pos]
        cases hp : (place es (lit "Extensions")).isNone with
        | true => rfl
        | false => exact absurd ((place_isSome es _).1 hp) h
    rw [this, sep_eq]
  have hget : ∀ j, (mergeOld es opt cats)[j]? = ((withExtensions es)[j]?).map (fun x => (x.1, (Tokens.tokens listSep e.2).foldl
      (stepAt cats ((place (withExtensions es) (lit "Extensions")).getD 0) j x.1) x.2)) := by
    intro j; rw [hm, fold_get]
  have huw := unique_with es hu
  have hex : ∃ x ∈ withExtensions es, Same x.1 (lit "Extensions") := by
    unfold withExtensions
    split
    · assumption
    · exact ⟨_, List.mem_append_right _ (List.mem_singleton_self _), rfl⟩
  constructor
  · apply Nat.le_antisymm
    · refine Nat.le_of_not_lt fun h => ?_
      have h1 := hget (withExtensions es).length
      rw [List.getElem?_eq_none (Nat.le_refl _), List.getElem?_eq_getElem h] at h1
      exact nomatch h1
    · refine Nat.le_of_not_lt fun h => ?_
      have h1 := hget (mergeOld es opt cats).length
      rw [List.getElem?_eq_none (Nat.le_refl _), List.getElem?_eq_getElem h] at h1
      exact nomatch h1
  · intro j x hx
    refine ⟨_, by rw [hget, hx]; rfl, ?_⟩
    have hplace : ∀ i, i = (place (withExtensions es) (lit "Extensions")).getD 0 → (j = i ↔ Same x.1 (lit "Extensions")) := by
      rintro _ rfl
      rw [← place_unique huw (lit "Extensions") j x hx]
      have := (place_isSome (withExtensions es) (lit "Extensions")).2 hex
      cases hp : place (withExtensions es) (lit "Extensions") with
      | none => rw [hp] at this; exact nomatch this
      | some k =>
        show j = k ↔ some k = some j
        exact ⟨fun h => by rw [h], fun h => (Option.some.inj h).symm⟩
    generalize (place (withExtensions es) (lit "Extensions")).getD 0 = i at hplace
    have hplace := hplace i rfl
    have hws : ∀ w ∈ Tokens.tokens listSep e.2, w ∈ Tokens.tokens listSep e.2 := fun _ h => h
    have hfold : ∀ (f g : Bytes → Bytes → Bytes), (∀ v s, f v s = g v s) → ∀ (ws : List Bytes) v, ws.foldl f v = ws.foldl g v := by
      intro f g h ws v
      rw [show f = g from funext fun v => funext fun s => h v s]
    refine ⟨fun h => ?_, fun h => ⟨fun hc => ?_, fun hc => ?_⟩, fun h1 h2 => ?_⟩
    · rw [hfold _ (fun v s => addGlobal s v)]
      · exact global_fold e.2 _ hws x.2
      · intro v s
        unfold stepAt
        rw [if_neg (by rw [extensions_no_category h, Bool.and_false]; exact Bool.false_ne_true), if_pos (hplace.2 h)]
    all_goals
      have hj : ∀ n, isCategory n = true → n = x.1 → ¬ j = i := by
        rintro _ hc rfl g
        rw [extensions_no_category (hplace.1 g)] at hc
        exact nomatch hc
    · have hc2 := (isCategory_iff x.1).2 h
      rw [hfold _ (fun v s => addCategory s v)]
      · exact category_fold e.2 _ hws x.2 hc.2
      · intro v s
        unfold stepAt
        rw [if_pos (by rw [hc.1, hc2]; rfl), if_neg (hj _ hc2 rfl)]
    · have hc2 := (isCategory_iff x.1).2 h
      by_cases hq : cats = true
      · have hx2 : x.2 = [] := hc.elim (fun h => by rw [h] at hq; exact nomatch hq) id
        rw [hfold _ (fun v s => addCategory s v)]
        · rw [hx2]; exact category_empty _
        · intro v s
          unfold stepAt
          rw [if_pos (by rw [hq, hc2]; rfl), if_neg (hj _ hc2 rfl)]
      · have hf : ∀ ws : List Bytes, ws.foldl (fun v _ => v) x.2 = x.2 := by
          intro ws; induction ws with
          | nil => rfl
          | cons _ _ ih => exact ih
        rw [hfold _ (fun v _ => v), hf]
        intro v s
        unfold stepAt
        rw [if_neg (by rw [Bool.and_eq_true]; exact fun g => hq g.1), if_neg (hj _ hc2 rfl)]
    · have hf : ∀ ws : List Bytes, ws.foldl (fun v _ => v) x.2 = x.2 := by
        intro ws; induction ws with
        | nil => rfl
        | cons _ _ ih => exact ih
      rw [hfold _ (fun v _ => v), hf]
      intro v s
      unfold stepAt
      rw [if_neg (by
        intro g
        rw [Bool.and_eq_true] at g
        exact h2 ((isCategory_iff _).1 g.2)), if_neg (fun g => h1 (hplace.1 g))]

/-! #### All three options -/

/-- The script is listed by an option of that name. -/
def Old (es : Entries) (opt w : Bytes) : Prop := ∃ e ∈ es, Same e.1 opt ∧ Tokens.IsToken listSep e.2 w

/-- A list to which the scripts with a property were appended. -/
def ExtendedBy (v v' : Bytes) (p : Bytes → Prop) : Prop :=
  v <+: v' ∧ (∀ s, Has v' s ↔ Has v s ∨ ∃ w, p w ∧ Same w s) ∧ (Distinct v → Distinct v')

theorem extendedBy_none (v : Bytes) (p : Bytes → Prop) (h : ∀ w, ¬ p w) : ExtendedBy v v p :=
  ⟨List.prefix_refl _, fun _ => ⟨Or.inl, fun g => g.elim id (fun ⟨w, hw, _⟩ => absurd hw (h w))⟩, id⟩

theorem extendedBy_trans {a b c : Bytes} {p q : Bytes → Prop} (h : ExtendedBy a b p) (g : ExtendedBy b c q) : ExtendedBy a c (fun w => p w ∨ q w) := by
  refine ⟨h.1.trans g.1, fun s => ?_, fun d => g.2.2 (h.2.2 d)⟩
  rw [g.2.1, h.2.1]
  constructor
  · rintro ((h | ⟨w, h, e⟩) | ⟨w, h, e⟩)
    · exact Or.inl h
    · exact Or.inr ⟨w, Or.inl h, e⟩
    · exact Or.inr ⟨w, Or.inr h, e⟩
  · rintro (h | ⟨w, h | h, e⟩)
    · exact Or.inl (Or.inl h)
    · exact Or.inl (Or.inr ⟨w, h, e⟩)
    · exact Or.inr ⟨w, h, e⟩

theorem extendedBy_congr {a b : Bytes} {p q : Bytes → Prop} (h : ExtendedBy a b p) (e : ∀ w, p w ↔ q w) : ExtendedBy a b q :=
  ⟨h.1, fun s => by rw [h.2.1]; simp only [e], h.2.2⟩

/-- What one option does. -/
structure Merged (es es' : Entries) (p : Bytes → Prop) (pc : Bytes → Prop) : Prop where
  unique : Unique es'
  at_ : ∀ (j : Nat) (x : Bytes × Bytes), es[j]? = some x → ∃ v, es'[j]? = some (x.1, v) ∧
    (Same x.1 (lit "Extensions") → ExtendedBy x.2 v p) ∧
    (CategoryList x.1 → x.2 ≠ [] → ExtendedBy x.2 v pc) ∧ (CategoryList x.1 → x.2 = [] → v = []) ∧
    (¬ Same x.1 (lit "Extensions") → ¬ CategoryList x.1 → v = x.2)
  new_ : ∀ (j : Nat) (y : Bytes × Bytes), es.length ≤ j → es'[j]? = some y → Same y.1 (lit "Extensions") ∧ ExtendedBy [] y.2 p
  has_ : (∃ w, p w) → ∃ e ∈ es', Same e.1 (lit "Extensions")

theorem withExtensions_at {es : Entries} {j : Nat} {x : Bytes × Bytes} (h : es[j]? = some x) : (withExtensions es)[j]? = some x := by
  unfold withExtensions
  split
  · exact h
  · rw [List.getElem?_append_left (List.getElem?_eq_some_iff.1 h).1]; exact h

theorem withExtensions_new {es : Entries} {j : Nat} {y : Bytes × Bytes} (hj : es.length ≤ j) (h : (withExtensions es)[j]? = some y) : y = (lit "Extensions", []) := by
  unfold withExtensions at h
  split at h
  · rw [List.getElem?_eq_none hj] at h; exact nomatch h
  · rw [List.getElem?_append_right hj] at h
    cases hk : j - es.length with
    | zero =>
      rw [hk] at h
      exact (Option.some.inj h).symm
    | succ k => rw [hk] at h; exact nomatch h

theorem unique_of_names {a b : Entries} (h : a.map (·.1) = b.map (·.1)) (hu : Unique a) : Unique b := by
  unfold Unique at *
  have h1 : (a.map (·.1)).Pairwise (fun x y => ¬ Same x y) := List.pairwise_map.2 hu
  rw [h] at h1
  exact List.pairwise_map.1 h1

theorem merge_one (es : Entries) (hu : Unique es) (opt : Bytes) (cats : Bool) :
    Merged es (mergeOld es opt cats) (Old es opt) (fun w => cats = true ∧ Old es opt w) := by
  by_cases h : ∃ e ∈ es, Same e.1 opt ∧ e.2 ≠ []
  · obtain ⟨e, he, hs, hv⟩ := h
    obtain ⟨hl, hg⟩ := old_scripts es hu opt cats e he hs hv
    have hold : ∀ w, w ∈ Tokens.tokens listSep e.2 ↔ Old es opt w := by
      intro w
      rw [Tokens.mem_tokens]
      constructor
      · intro h; exact ⟨e, he, hs, h⟩
      · rintro ⟨x, hx, hxs, h⟩
        have h1 := entry_unique hu he hs
        rw [entry_unique hu hx hxs] at h1
        rw [← Option.some.inj h1]
        exact h
    have hext : ∀ {v v'}, Extended v v' (Tokens.tokens listSep e.2) → ExtendedBy v v' (Old es opt) := by
      rintro v v' ⟨a, b, c⟩
      refine ⟨a, fun s => ?_, c⟩
      rw [b]
      simp only [hold]
    have hname : (withExtensions es).map (·.1) = (mergeOld es opt cats).map (·.1) := by
      apply List.ext_getElem?
      intro j
      rw [List.getElem?_map, List.getElem?_map]
      cases hx : (withExtensions es)[j]? with
      | some x =>
        obtain ⟨v, hv, _⟩ := hg j x hx
        rw [hv]; rfl
      | none =>
        rw [List.getElem?_eq_none (l := mergeOld es opt cats)]
        rw [hl]; exact List.getElem?_eq_none_iff.1 hx
    refine ⟨unique_of_names hname (unique_with es hu), fun j x hx => ?_, fun j y hj hy => ?_, fun _ => ?_⟩
    · obtain ⟨v, g1, g2, g3, g4⟩ := hg j x (withExtensions_at hx)
      refine ⟨v, g1, fun h => hext (g2 h), fun h hne => ?_, fun h hne => ?_, g4⟩
      · by_cases hc : cats = true
        · exact extendedBy_congr (hext ((g3 h).1 ⟨hc, hne⟩)) (fun w => ⟨fun k => ⟨hc, k⟩, fun k => k.2⟩)
        · rw [(g3 h).2 (Or.inl (by simpa using hc))]
          exact extendedBy_none _ _ (fun w k => hc k.1)
      · rw [(g3 h).2 (Or.inr hne), hne]
    · have hlt : j < (withExtensions es).length := by rw [← hl]; exact (List.getElem?_eq_some_iff.1 hy).1
      have hnew := withExtensions_new hj (List.getElem?_eq_getElem hlt)
      obtain ⟨v, g1, g2, _⟩ := hg j (lit "Extensions", []) (by rw [List.getElem?_eq_getElem hlt, hnew])
      rw [hy] at g1
      rw [Option.some.inj g1]
      exact ⟨rfl, hext (g2 rfl)⟩
    · have : ∃ n ∈ (withExtensions es).map (·.1), Same n (lit "Extensions") := by
        unfold withExtensions
        split
        · next h =>
          obtain ⟨x, hx, h⟩ := h
          exact ⟨x.1, List.mem_map_of_mem hx, h⟩
        · exact ⟨lit "Extensions", List.mem_map.2 ⟨_, List.mem_append_right _ (List.mem_singleton_self _), rfl⟩, rfl⟩
      rw [hname] at this
      obtain ⟨n, hn, h⟩ := this
      obtain ⟨x, hx, rfl⟩ := List.mem_map.1 hn
      exact ⟨x, hx, h⟩
  · have hno : ∀ e ∈ es, Same e.1 opt → e.2 = [] := fun e he hs => Classical.byContradiction fun hv => h ⟨e, he, hs, hv⟩
    rw [mergeOld_none es opt cats hno]
    have hold : ∀ w, ¬ Old es opt w := by
      rintro w ⟨e, he, hs, ht⟩
      have := (Tokens.mem_tokens _ _ _).2 ht
      rw [hno e he hs] at this
      exact nomatch this
    refine ⟨hu, fun j x hx => ⟨x.2, hx, fun _ => extendedBy_none _ _ hold, fun _ _ => extendedBy_none _ _ (fun w k => hold w k.2), fun _ h => h, fun _ _ => rfl⟩, fun j y hj hy => ?_, fun ⟨w, h⟩ => absurd h (hold w)⟩
    rw [List.getElem?_eq_none hj] at hy
    exact nomatch hy

theorem merged_trans {a b c : Entries} {p q pc qc : Bytes → Prop} (h : Merged a b p pc) (g : Merged b c q qc) :
    Merged a c (fun w => p w ∨ q w) (fun w => pc w ∨ qc w) := by
  have hkeep : (∃ w, p w) → ∃ e ∈ c, Same e.1 (lit "Extensions") := by
    intro hp
    obtain ⟨e, he, hs⟩ := h.has_ hp
    obtain ⟨j, hj, hje⟩ := List.mem_iff_getElem.1 he
    obtain ⟨v, g1, _⟩ := g.at_ j e (by rw [List.getElem?_eq_getElem hj, hje])
    exact ⟨_, List.mem_of_getElem? g1, hs⟩
  refine ⟨g.unique, fun j x hx => ?_, fun j y hj hy => ?_, fun ⟨w, hw⟩ => hw.elim (fun k => hkeep ⟨w, k⟩) (fun k => g.has_ ⟨w, k⟩)⟩
  · obtain ⟨v, h1, h2, h3, h4, h5⟩ := h.at_ j x hx
    obtain ⟨w, g1, g2, g3, g4, g5⟩ := g.at_ j _ h1
    refine ⟨w, g1, fun e => extendedBy_trans (h2 e) (g2 e), fun k hne => ?_, fun k he => g4 k (h4 k he), fun n1 n2 => (g5 n1 n2).trans (h5 n1 n2)⟩
    have e1 := h3 k hne
    refine extendedBy_trans e1 (g3 k ?_)
    intro hv
    have hv : v = [] := hv
    rw [hv] at e1
    exact hne (List.prefix_nil.1 e1.1)
  · by_cases hb : b.length ≤ j
    · obtain ⟨k1, k2⟩ := g.new_ j y hb hy
      refine ⟨k1, extendedBy_congr k2 fun w => ⟨Or.inr, fun k => k.elim (fun hp => ?_) id⟩⟩
      exfalso
      obtain ⟨e, he, hs⟩ := h.has_ ⟨w, hp⟩
      obtain ⟨i, hi, hie⟩ := List.mem_iff_getElem.1 he
      obtain ⟨v, g1, _⟩ := g.at_ i e (by rw [List.getElem?_eq_getElem hi, hie])
      obtain ⟨l1, l2⟩ := List.getElem?_eq_some_iff.1 g1
      obtain ⟨l3, l4⟩ := List.getElem?_eq_some_iff.1 hy
      refine (List.pairwise_iff_getElem.1 g.unique) i j l1 l3 (by omega) ?_
      rw [l2, l4]
      exact hs.trans k1.symm
    · have hlt : j < b.length := by omega
      obtain ⟨v, g1, g2, _⟩ := g.at_ j _ (List.getElem?_eq_getElem hlt)
      rw [hy] at g1
      rw [Option.some.inj g1]
      obtain ⟨k1, k2⟩ := h.new_ j _ hj (List.getElem?_eq_getElem hlt)
      exact ⟨k1, extendedBy_trans k2 (g2 k1)⟩

/-- The old options keep their values. -/
theorem merged_old {a b : Entries} {p pc : Bytes → Prop} (h : Merged a b p pc) (opt : Bytes) (h1 : ∀ n, Same n opt → ¬ Same n (lit "Extensions")) (h2 : ∀ n, Same n opt → ¬ CategoryList n) (w : Bytes) :
    Old b opt w ↔ Old a opt w := by
  constructor
  · rintro ⟨e, he, hs, ht⟩
    obtain ⟨j, hj, hje⟩ := List.mem_iff_getElem.1 he
    have hb : b[j]? = some e := by rw [List.getElem?_eq_getElem hj, hje]
    by_cases hl : a.length ≤ j
    · exact absurd (h.new_ j e hl hb).1 (h1 _ hs)
    · have hlt : j < a.length := by omega
      obtain ⟨v, g1, _, _, _, g5⟩ := h.at_ j _ (List.getElem?_eq_getElem hlt)
      rw [hb] at g1
      have g1 := Option.some.inj g1
      have hn : a[j].1 = e.1 := (congrArg (·.1) g1).symm
      have hvv : v = e.2 := (congrArg (·.2) g1).symm
      have := g5 (by rw [hn]; exact h1 _ hs) (by rw [hn]; exact h2 _ hs)
      exact ⟨a[j], List.getElem_mem hlt, by rw [hn]; exact hs, by rw [← this, hvv]; exact ht⟩
  · rintro ⟨e, he, hs, ht⟩
    obtain ⟨j, hj, hje⟩ := List.mem_iff_getElem.1 he
    obtain ⟨v, g1, _, _, _, g5⟩ := h.at_ j e (by rw [List.getElem?_eq_getElem hj, hje])
    exact ⟨_, List.mem_of_getElem? g1, hs, by rw [g5 (h1 _ hs) (h2 _ hs)]; exact ht⟩

theorem not_extensions {opt : Bytes} (h : WildMask.lower <$> opt ≠ WildMask.lower <$> lit "Extensions") (n : Bytes) (hn : Same n opt) : ¬ Same n (lit "Extensions") := by
  intro g
  unfold Same at *
  exact h (hn.symm.trans g)

theorem not_category {opt : Bytes} (h : (opt.map WildMask.lower).take 8 ≠ lit "category") (n : Bytes) (hn : Same n opt) : ¬ CategoryList n := by
  rintro ⟨ds, _, g⟩
  unfold Same at *
  rw [hn] at g
  rw [g] at h
  rw [List.map_append, List.map_append, List.append_assoc] at h
  exact h (by rw [List.take_append_of_le_length (by decide)]; decide)

/-- C107: when the configuration is loaded, the scripts of the options ScanScript, QueueScript and FeedScript of earlier versions become extensions; those
of ScanScript and QueueScript also for the categories which have extensions of their own. All other values remain. -/
theorem all_old_scripts (es : Entries) (hu : Unique es) (j : Nat) (x : Bytes × Bytes) (hx : es[j]? = some x) :
    ∃ v, (convertAll es)[j]? = some (x.1, v) ∧
      (Same x.1 (lit "Extensions") → ExtendedBy x.2 v (fun w => Old es (lit "ScanScript") w ∨ Old es (lit "QueueScript") w ∨ Old es (lit "FeedScript") w)) ∧
      (CategoryList x.1 → x.2 ≠ [] → ExtendedBy x.2 v (fun w => Old es (lit "ScanScript") w ∨ Old es (lit "QueueScript") w)) ∧
      (CategoryList x.1 → x.2 = [] → v = []) ∧ (¬ Same x.1 (lit "Extensions") → ¬ CategoryList x.1 → v = x.2) := by
  have m1 := merge_one es hu (lit "ScanScript") true
  have m2 := merge_one _ m1.unique (lit "QueueScript") true
  have m3 := merge_one _ m2.unique (lit "FeedScript") false
  have m12 := merged_trans m1 m2
  have o2 := merged_old m1 (lit "QueueScript") (not_extensions (by decide)) (not_category (by decide))
  have o3 := merged_old m12 (lit "FeedScript") (not_extensions (by decide)) (not_category (by decide))
  obtain ⟨v, h1, h2, h3, h4, h5⟩ := (merged_trans m12 m3).at_ j x hx
  refine ⟨v, h1, fun e => extendedBy_congr (h2 e) fun w => ?_, fun k hne => extendedBy_congr (h3 k hne) fun w => ?_, h4, h5⟩
  · show (Old es _ w ∨ Old (mergeOld es _ _) _ w) ∨ Old (mergeOld (mergeOld es _ _) _ _) _ w ↔ _
    rw [o2, o3, or_assoc]
  · show ((true = true ∧ Old es _ w) ∨ (true = true ∧ Old (mergeOld es _ _) _ w)) ∨ (false = true ∧ Old (mergeOld (mergeOld es _ _) _ _) _ w) ↔ _
    rw [o2]
    simp

/-- C107: if there was no option Extensions, it is added with these scripts. -/
theorem extensions_added (es : Entries) (hu : Unique es) (hn : ¬ ∃ e ∈ es, Same e.1 (lit "Extensions"))
    (w : Bytes) (hw : Old es (lit "ScanScript") w ∨ Old es (lit "QueueScript") w ∨ Old es (lit "FeedScript") w) :
    ∃ e ∈ convertAll es, Same e.1 (lit "Extensions") ∧
      ExtendedBy [] e.2 (fun w => Old es (lit "ScanScript") w ∨ Old es (lit "QueueScript") w ∨ Old es (lit "FeedScript") w) := by
  have m1 := merge_one es hu (lit "ScanScript") true
  have m2 := merge_one _ m1.unique (lit "QueueScript") true
  have m3 := merge_one _ m2.unique (lit "FeedScript") false
  have m12 := merged_trans m1 m2
  have o2 := merged_old m1 (lit "QueueScript") (not_extensions (by decide)) (not_category (by decide))
  have o3 := merged_old m12 (lit "FeedScript") (not_extensions (by decide)) (not_category (by decide))
  have m := merged_trans m12 m3
  have e : ∀ w, ((Old es (lit "ScanScript") w ∨ Old (mergeOld es (lit "ScanScript") true) (lit "QueueScript") w) ∨
      Old (mergeOld (mergeOld es (lit "ScanScript") true) (lit "QueueScript") true) (lit "FeedScript") w) ↔
      (Old es (lit "ScanScript") w ∨ Old es (lit "QueueScript") w ∨ Old es (lit "FeedScript") w) := by
    intro w
    rw [o2, o3, or_assoc]
  obtain ⟨y, hy, hs⟩ := m.has_ ⟨w, (e w).2 hw⟩
  obtain ⟨j, hj, hje⟩ := List.mem_iff_getElem.1 hy
  have hb : (mergeOld (mergeOld (mergeOld es (lit "ScanScript") true) (lit "QueueScript") true) (lit "FeedScript") false)[j]? = some y := by
    rw [List.getElem?_eq_getElem hj, hje]
  refine ⟨y, hy, hs, ?_⟩
  by_cases hl : es.length ≤ j
  · exact extendedBy_congr (m.new_ j y hl hb).2 e
  · have hlt : j < es.length := by omega
    obtain ⟨v, g1, _⟩ := m.at_ j _ (List.getElem?_eq_getElem hlt)
    rw [hb] at g1
    refine absurd ⟨es[j], List.getElem_mem hlt, ?_⟩ hn
    rw [show es[j].1 = y.1 from (congrArg (·.1) (Option.some.inj g1)).symm]
    exact hs

/-- C107: the options of the three earlier kinds of scripts are the only ones which change anything. -/
theorem nothing_old (es : Entries) (h : NoOld es) : convertAll es = es := convertAll_none es h

-- the scripts of a scan script option: the extensions get both, a category with extensions too, another stays without
example : convertAll [(lit "Extensions", lit "Mail.py"), (lit "ScanScript", lit "a.py; MAIL.py"), (lit "Category1.Extensions", lit "x.py"),
    (lit "Category2.Extensions", [])] =
    [(lit "Extensions", lit "Mail.py,a.py"), (lit "ScanScript", lit "a.py; MAIL.py"), (lit "Category1.Extensions", lit "x.py,a.py,MAIL.py"),
      (lit "Category2.Extensions", [])] := by decide +kernel

-- the extensions are added; the scripts of feeds are not given to categories
example : convertAll [(lit "feedscript", lit "f.py,,f.py"), (lit "category1.extensions", lit "x.py")] =
    [(lit "feedscript", lit "f.py,,f.py"), (lit "category1.extensions", lit "x.py"), (lit "Extensions", lit "f.py")] := by decide +kernel

end Verif.SaveConf
