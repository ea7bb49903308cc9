import Verif.FeedFilterProps
/-
C64: the duplicate key made from the numbers of a feed item.
-/
namespace Verif.FeedFilter
open CStr

/-! ### Specification -/

/-- The id taken for a kind of numbering: the one of the rule if the rule gives one, else the one of the
item. -/
def IdIs (ofRule : Option Bytes) (ofItem n : Int) : Prop :=
  (∃ b, ofRule = some b ∧ b ≠ [] ∧ n = atoll b) ∨ ((ofRule = none ∨ ofRule = some []) ∧ n = ofItem)

/-- The decimal notation of a number. -/
def Decimal (n : Int) (b : Bytes) : Prop :=
  (0 ≤ n ∧ b = dec n.toNat) ∨ (n < 0 ∧ b = 45 :: dec (-n).toNat)

/-- `-<season>-<episode>`. -/
def Suffix (it : Item) : Bytes := lit "-" ++ it.season ++ lit "-" ++ it.episode

/-- The item has a season and an episode number. -/
def Numbered (it : Item) : Prop := it.seasonNum ≠ 0 ∧ it.episodeNum ≠ 0

/-- The key: a film is identified by its imdb id; otherwise an episode is identified by the series of the
rule, else by the first known one of rage-, tvdb- and tvmaze-id, together with season and episode; other
items have no key. -/
inductive KeyOf (o : Opts) (it : Item) : Bytes → Prop
  | film (d) : it.imdb ≠ 0 → Decimal it.imdb d → KeyOf o it (lit "imdb=" ++ d)
  | series (s) : it.imdb = 0 → Numbered it → o.series = some s → s ≠ [] →
      KeyOf o it (lit "series=" ++ s ++ Suffix it)
  | rage (n d) : it.imdb = 0 → Numbered it → o.series.getD [] = [] → IdIs o.rage it.rage n → n ≠ 0 →
      Decimal n d → KeyOf o it (lit "rageid=" ++ d ++ Suffix it)
  | tvdb (n d) : it.imdb = 0 → Numbered it → o.series.getD [] = [] → IdIs o.rage it.rage 0 →
      IdIs o.tvdb it.tvdb n → n ≠ 0 → Decimal n d → KeyOf o it (lit "tvdbid=" ++ d ++ Suffix it)
  | tvmaze (n d) : it.imdb = 0 → Numbered it → o.series.getD [] = [] → IdIs o.rage it.rage 0 →
      IdIs o.tvdb it.tvdb 0 → IdIs o.tvmaze it.tvmaze n → n ≠ 0 → Decimal n d →
      KeyOf o it (lit "tvmazeid=" ++ d ++ Suffix it)
  | none : it.imdb = 0 → (Numbered it → o.series.getD [] = [] ∧ IdIs o.rage it.rage 0 ∧
      IdIs o.tvdb it.tvdb 0 ∧ IdIs o.tvmaze it.tvmaze 0) → KeyOf o it []

/-- What is added to a key: nothing to an empty key, and nothing empty. -/
inductive Appended : Bytes → Bytes → Bytes → Prop
  | noKey (e) : Appended [] e []
  | noExtra (k) : Appended k [] k
  | both (k e) : k ≠ [] → e ≠ [] → Appended k e (k ++ lit "-" ++ e)

/-! ### Proofs -/

theorem idOr_is (s : Option Bytes) (n : Int) : IdIs s n (idOr s n) := by
  unfold idOr IdIs
  cases s with
  | none => simp
  | some b =>
    by_cases h : b = []
    · subst h; simp
    · left; exact ⟨b, rfl, h, by simp [h]⟩

theorem showInt_decimal (n : Int) : Decimal n (showInt n) := by
  unfold showInt Decimal dec
  by_cases h : n < 0
  · right; refine ⟨h, ?_⟩
    rw [if_pos h]
    have : n.natAbs = (-n).toNat := by omega
    rw [this]
  · left; refine ⟨by omega, ?_⟩
    rw [if_neg h]
    have : n.natAbs = n.toNat := by omega
    rw [this]

/-- **C64.** The key built for an item is the one described by `KeyOf`. -/
theorem buildKey_spec (o : Opts) (it : Item) : KeyOf o it (buildKey o it) := by
  unfold buildKey
  dsimp only
  have hs : [45] ++ it.season ++ [45] ++ it.episode = Suffix it := rfl
  rw [hs]
  by_cases hi : it.imdb ≠ 0
  · rw [if_pos hi]; exact .film _ hi (showInt_decimal _)
  · rw [if_neg hi]
    have hi0 : it.imdb = 0 := by simpa using hi
    by_cases h1 : o.series.getD [] ≠ [] ∧ (it.seasonNum ≠ 0 ∧ it.episodeNum ≠ 0)
    · rw [if_pos h1]
      cases hser : o.series with
      | none => rw [hser] at h1; exact absurd rfl h1.1
      | some s => rw [hser] at h1; exact .series s hi0 h1.2 hser h1.1
    · rw [if_neg h1]
      by_cases hnum : it.seasonNum ≠ 0 ∧ it.episodeNum ≠ 0
      · have hser : o.series.getD [] = [] := by
          by_cases h : o.series.getD [] = []
          · exact h
          · exact absurd ⟨h, hnum⟩ h1
        have ir := idOr_is o.rage it.rage
        have it' := idOr_is o.tvdb it.tvdb
        have im := idOr_is o.tvmaze it.tvmaze
        by_cases h2 : idOr o.rage it.rage = 0
        · rw [if_neg (fun h => h.1 h2)]
          rw [h2] at ir
          by_cases h3 : idOr o.tvdb it.tvdb = 0
          · rw [if_neg (fun h => h.1 h3)]
            rw [h3] at it'
            by_cases h4 : idOr o.tvmaze it.tvmaze = 0
            · rw [if_neg (fun h => h.1 h4)]
              rw [h4] at im
              exact .none hi0 (fun _ => ⟨hser, ir, it', im⟩)
            · rw [if_pos ⟨h4, hnum⟩]
              exact .tvmaze _ _ hi0 hnum hser ir it' im h4 (showInt_decimal _)
          · rw [if_pos ⟨h3, hnum⟩]
            exact .tvdb _ _ hi0 hnum hser ir it' h3 (showInt_decimal _)
        · rw [if_pos ⟨h2, hnum⟩]
          exact .rage _ _ hi0 hnum hser ir h2 (showInt_decimal _)
      · rw [if_neg (fun h => hnum h.2), if_neg (fun h => hnum h.2), if_neg (fun h => hnum h.2)]
        exact .none hi0 (fun h => absurd h hnum)

/-- **C64.** Appending to a key. -/
theorem appendKey_spec (k e : Bytes) : Appended k e (appendKey k e) := by
  unfold appendKey
  by_cases hk : k = []
  · subst hk; simp; exact .noKey e
  · by_cases he : e = []
    · subst he; simp; exact .noExtra k
    · rw [if_pos ⟨hk, he⟩]; exact .both k e hk he

theorem showInt_inj {a b : Int} {r s : Bytes} (hr : ∀ c ∈ r.head?, isDigit c = false)
    (hs : ∀ c ∈ s.head?, isDigit c = false) (h : showInt a ++ r = showInt b ++ s) : a = b ∧ r = s := by
  have key : ∀ (m n : Nat), dec m ++ r = dec n ++ s → m = n := by
    intro m n h
    rw [← digits_dec m r hr, h, digits_dec n s hs]
  have first : ∀ n : Nat, ∃ d l, dec n = d :: l ∧ isDigit d = true := fun n => decAux_ne_nil (n+1) n (by omega)
  unfold showInt at h
  by_cases ha : a < 0 <;> by_cases hb : b < 0
  · simp only [ha, hb, if_true, List.cons_append, List.cons.injEq, true_and] at h
    have := key a.natAbs b.natAbs h
    have hab : a = b := by omega
    subst hab
    exact ⟨rfl, List.append_cancel_left h⟩
  · simp only [ha, hb, if_true, if_false, List.cons_append] at h
    obtain ⟨d, l, e1, e2⟩ := first b.natAbs
    unfold dec at e1
    rw [e1] at h
    simp only [List.cons_append, List.cons.injEq] at h
    rw [← h.1] at e2; exact absurd e2 (by decide)
  · simp only [ha, hb, if_true, if_false, List.cons_append] at h
    obtain ⟨d, l, e1, e2⟩ := first a.natAbs
    unfold dec at e1
    rw [e1] at h
    simp only [List.cons_append, List.cons.injEq] at h
    rw [h.1] at e2; exact absurd e2 (by decide)
  · simp only [ha, hb, if_false] at h
    have := key a.natAbs b.natAbs h
    have hab : a = b := by omega
    subst hab
    exact ⟨rfl, List.append_cancel_left h⟩

/-- **C64.** Two items with imdb ids have the same key exactly if they are the same film. -/
theorem same_film (o o' : Opts) (a b : Item) (ha : a.imdb ≠ 0) (hb : b.imdb ≠ 0) :
    buildKey o a = buildKey o' b ↔ a.imdb = b.imdb := by
  unfold buildKey
  dsimp only
  rw [if_pos ha, if_pos hb]
  constructor
  · intro h
    have h' := List.append_cancel_left h
    have := showInt_inj (r := []) (s := []) (by simp) (by simp) (by simpa using h')
    exact this.1
  · intro h; rw [h]

/-- Cutting a text at its first dash. -/
theorem dash_split {a b r s : Bytes} (ha : 45 ∉ a) (hb : 45 ∉ b) (h : a ++ 45 :: r = b ++ 45 :: s) :
    a = b ∧ r = s := by
  induction a generalizing b with
  | nil =>
    cases b with
    | nil => simpa using h
    | cons c b => simp at h; simp [← h.1] at hb
  | cons c a ih =>
    cases b with
    | nil => simp at h; simp [h.1] at ha
    | cons d b =>
      simp only [List.cons_append, List.cons.injEq] at h
      simp only [List.mem_cons, not_or] at ha hb
      have := ih ha.2 hb.2 h.2
      exact ⟨by rw [h.1, this.1], this.2⟩

/-- **C64.** Two episodes known by rage ids have the same key exactly if id, season and episode are the
same (season and episode contain no dash). -/
theorem same_episode (a b : Item) (ha : a.imdb = 0 ∧ Numbered a ∧ a.rage ≠ 0 ∧ 45 ∉ a.season)
    (hb : b.imdb = 0 ∧ Numbered b ∧ b.rage ≠ 0 ∧ 45 ∉ b.season) :
    buildKey {} a = buildKey {} b ↔ a.rage = b.rage ∧ a.season = b.season ∧ a.episode = b.episode := by
  obtain ⟨a1, a2, a3, a4⟩ := ha
  obtain ⟨b1, b2, b3, b4⟩ := hb
  unfold Numbered at a2 b2
  have key : ∀ i : Item, i.imdb = 0 → (i.seasonNum ≠ 0 ∧ i.episodeNum ≠ 0) → i.rage ≠ 0 →
      buildKey {} i = lit "rageid=" ++ showInt i.rage ++ ([45] ++ i.season ++ [45] ++ i.episode) := by
    intro i h1 h2 h3
    unfold buildKey
    dsimp only
    rw [if_neg (fun h => h h1), if_neg (fun h => h.1 rfl), if_pos ⟨h3, h2⟩]
    rfl
  rw [key a a1 a2 a3, key b b1 b2 b3]
  constructor
  · intro h
    simp only [List.append_assoc] at h
    have h' := List.append_cancel_left h
    have h2 := showInt_inj (r := [45] ++ (a.season ++ ([45] ++ a.episode)))
      (s := [45] ++ (b.season ++ ([45] ++ b.episode))) (by simp; decide) (by simp; decide) (by simpa using h')
    obtain ⟨e1, e2⟩ := h2
    simp only [List.cons_append, List.nil_append, List.cons.injEq, true_and] at e2
    have := dash_split a4 b4 e2
    exact ⟨e1, this.1, this.2⟩
  · rintro ⟨h1, h2, h3⟩
    rw [h1, h2, h3]

/-- An item without numbers. -/
def plainItem : Item :=
  { pause := false, category := [], priority := 0, score := 0, key := [], mode := .score, imdb := 0, rage := 0,
    tvdb := 0, tvmaze := 0, season := [], seasonNum := 0, episode := [], episodeNum := 0, status := .ignored,
    rule := 0 }

/-- A film and an episode which meet the hypotheses. -/
example : buildKey {} { plainItem with imdb := 133093 } = lit "imdb=133093" := by decide +kernel
example : buildKey { tvdb := some (lit "42") } { plainItem with
    season := lit "S02", seasonNum := 2, episode := lit "E05", episodeNum := 5 } = lit "tvdbid=42-S02-E05" := by
  decide +kernel

end Verif.FeedFilter
