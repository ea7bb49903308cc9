import Verif.OptStoreProps
import Verif.DecoderLemmas
/-
Names of options and the configuration file (C99).
-/
namespace Verif.OptStore
open CStr

/-! ### Whatever is set -/

theorem expand_keeps : ∀ (k : Nat) (s : Store) (v : Bytes) (r : Store × Bytes), expand k s v = some r →
    ∀ m, (lookup r.1 m).map (fun e => (e.value, e.dflt)) = (lookup s m).map (fun e => (e.value, e.dflt)) := by
  intro k
  induction k with
  | zero => intro s v r h; simp [expand] at h
  | succ k ih =>
    intro s v r h m
    rw [expand] at h
    cases hv : findVar v with
    | none => rw [hv] at h; simp at h; rw [← h]
    | some p =>
      rw [hv] at h; dsimp only at h
      cases hs : splitAt 125 p.2 with
      | none => rw [hs] at h; simp at h; rw [← h]
      | some q =>
        rw [hs] at h; dsimp only at h
        unfold getOption at h; dsimp only at h
        cases hl : (lookup s (varName q.1 q.2)).bind (·.value) with
        | none => rw [hl] at h; simp at h; rw [← h]; exact lookup_rename s _ m
        | some x =>
          rw [hl] at h; dsimp only at h
          rw [ih _ _ r h m, lookup_rename]

theorem setOption_other {home : Bytes → Bytes} {k : Nat} {s s' : Store} {n v : Bytes}
    (h : setOption home k s n v = some s') :
    ∃ x, ∀ m, valueOf s' m = if Same m n then some x else valueOf s m := by
  unfold setOption at h
  cases he : expand k (findOrAdd s n) (expandHome home v) with
  | none => rw [he] at h; simp at h
  | some r =>
    rw [he] at h; simp at h; subst h
    have g := expand_keeps _ _ _ _ he
    refine ⟨r.2, fun m => ?_⟩
    rw [valueOf_setValue _ _ _ _ (by
      have := congrArg Option.isSome (g n)
      rw [Option.isSome_map, Option.isSome_map] at this
      rw [this]; exact lookup_findOrAdd s n)]
    have h2 : valueOf r.1 m = valueOf s m := by rw [valueOf_eq, g m, ← valueOf_eq, valueOf_findOrAdd]
    rw [h2]

theorem defaultOf_setValue (s : Store) (n v m d : Bytes) (h : defaultOf s m = some d) :
    defaultOf (setValue n v s) m = some d := by
  rw [defaultOf_eq] at h ⊢
  rw [lookup_setValue]
  cases hl : lookup s m with
  | none => rw [hl] at h; simp at h
  | some e =>
    rw [hl] at h; simp at h
    by_cases g : Same m n
    · rw [if_pos g]; simp [h]
    · rw [if_neg g]; simp [h]

theorem setOption_default {home : Bytes → Bytes} {k : Nat} {s s' : Store} {n v m d : Bytes}
    (h : setOption home k s n v = some s') (hd : defaultOf s m = some d) : defaultOf s' m = some d := by
  unfold setOption at h
  cases he : expand k (findOrAdd s n) (expandHome home v) with
  | none => rw [he] at h; simp at h
  | some r =>
    rw [he] at h; simp at h; subst h
    have g := expand_keeps _ _ _ _ he
    apply defaultOf_setValue
    rw [defaultOf_eq, g m, ← defaultOf_eq, defaultOf_findOrAdd]; exact hd

/-- The names of the entries, ignoring the case. -/
def names (s : Store) : List Bytes := s.map (fun e => e.name.map WildMask.lower)

theorem unique_iff (s : Store) : Unique s ↔ (names s).Nodup := by
  unfold Unique names List.Nodup
  rw [List.pairwise_map]
  rfl

theorem names_rename (n : Bytes) (s : Store) : names (rename n s) = names s := by
  induction s with
  | nil => rfl
  | cons e s ih =>
    rw [rename_cons]
    by_cases h : Same e.name n
    · rw [if_pos h]; unfold names; simp; exact h.symm
    · rw [if_neg h]; unfold names at *; simp [ih]

theorem names_setValue (n v : Bytes) (s : Store) : names (setValue n v s) = names s := by
  induction s with
  | nil => rfl
  | cons e s ih =>
    rw [setValue_cons]
    by_cases h : Same e.name n
    · rw [if_pos h]; rfl
    · rw [if_neg h]; unfold names at *; simp [ih]

theorem lookup_none_iff (s : Store) (n : Bytes) : lookup s n = none ↔ n.map WildMask.lower ∉ names s := by
  induction s with
  | nil => simp [lookup, names]
  | cons e s ih =>
    rw [lookup_cons]
    unfold names at *
    by_cases h : Same e.name n
    · rw [if_pos h]; simp [show List.map WildMask.lower n = List.map WildMask.lower e.name from h.symm]
    · rw [if_neg h, ih]
      simp only [List.map_cons, List.mem_cons, not_or]
      exact ⟨fun g => ⟨fun k => h k.symm, g⟩, fun g => g.2⟩

theorem names_findOrAdd (s : Store) (n : Bytes) :
    names (findOrAdd s n) = if n.map WildMask.lower ∈ names s then names s
      else names s ++ [n.map WildMask.lower] := by
  unfold findOrAdd
  by_cases h : n.map WildMask.lower ∈ names s
  · have : (lookup s n).isSome = true := by
      cases hl : lookup s n with
      | none => exact absurd h ((lookup_none_iff s n).1 hl)
      | some e => rfl
    rw [if_pos this, if_pos h, names_rename]
  · have : lookup s n = none := (lookup_none_iff s n).2 h
    rw [this, if_neg h]
    simp [names]

theorem names_expand : ∀ (k : Nat) (s : Store) (v : Bytes) (r : Store × Bytes), expand k s v = some r →
    names r.1 = names s := by
  intro k
  induction k with
  | zero => intro s v r h; simp [expand] at h
  | succ k ih =>
    intro s v r h
    rw [expand] at h
    cases hv : findVar v with
    | none => rw [hv] at h; simp at h; rw [← h]
    | some p =>
      rw [hv] at h; dsimp only at h
      cases hs : splitAt 125 p.2 with
      | none => rw [hs] at h; simp at h; rw [← h]
      | some q =>
        rw [hs] at h; dsimp only at h
        unfold getOption at h; dsimp only at h
        cases hl : (lookup s (varName q.1 q.2)).bind (·.value) with
        | none => rw [hl] at h; simp at h; rw [← h]; exact names_rename _ s
        | some x =>
          rw [hl] at h; dsimp only at h
          rw [ih _ _ r h, names_rename]

theorem names_setOption {home : Bytes → Bytes} {k : Nat} {s s' : Store} {n v : Bytes}
    (h : setOption home k s n v = some s') :
    names s' = if n.map WildMask.lower ∈ names s then names s else names s ++ [n.map WildMask.lower] := by
  unfold setOption at h
  cases he : expand k (findOrAdd s n) (expandHome home v) with
  | none => rw [he] at h; simp at h
  | some r =>
    rw [he] at h; simp at h; subst h
    rw [names_setValue, names_expand _ _ _ _ he, names_findOrAdd]

/-- What every step keeps: names stay different, no option disappears, defaults stay, and the options of the
program keep their values. -/
def Keeps (s s' : Store) : Prop :=
  (Unique s → Unique s') ∧ names s <+: names s' ∧ (∀ m d, defaultOf s m = some d → defaultOf s' m = some d) ∧
  ∀ m, readOnly m = true → valueOf s' m = valueOf s m

theorem Keeps.refl (s : Store) : Keeps s s := ⟨id, List.prefix_refl _, fun _ _ h => h, fun _ _ => rfl⟩

theorem Keeps.trans {a b c : Store} (h : Keeps a b) (g : Keeps b c) : Keeps a c :=
  ⟨fun u => g.1 (h.1 u), h.2.1.trans g.2.1, fun m d e => g.2.2.1 m d (h.2.2.1 m d e),
    fun m e => (g.2.2.2 m e).trans (h.2.2.2 m e)⟩

theorem keeps_rename (n : Bytes) (s : Store) : Keeps s (rename n s) := by
  refine ⟨?_, ?_, ?_, ?_⟩
  · rw [unique_iff, unique_iff, names_rename]; exact id
  · rw [names_rename]; exact List.prefix_refl _
  · intro m d h; rw [defaultOf_rename]; exact h
  · intro m _; exact valueOf_rename s n m

theorem readOnly_same {a b : Bytes} (h : Same a b) : readOnly a = readOnly b := by
  unfold readOnly isOneOf Rpc.eqNoCase
  rw [show List.map WildMask.lower a = List.map WildMask.lower b from h]

theorem keeps_setOption {home : Bytes → Bytes} {k : Nat} {s s' : Store} {n v : Bytes}
    (h : setOption home k s n v = some s') (hn : readOnly n = false) : Keeps s s' := by
  have hns := names_setOption h
  refine ⟨?_, ?_, ?_, ?_⟩
  · rw [unique_iff, unique_iff, hns]
    intro u
    by_cases g : n.map WildMask.lower ∈ names s
    · rw [if_pos g]; exact u
    · rw [if_neg g, List.nodup_append]
      refine ⟨u, by simp, ?_⟩
      intro a ha b hb
      simp at hb; subst hb
      intro e; exact g (e ▸ ha)
  · rw [hns]
    by_cases g : n.map WildMask.lower ∈ names s
    · rw [if_pos g]; exact List.prefix_refl _
    · rw [if_neg g]; exact List.prefix_append _ _
  · intro m d hd; exact setOption_default h hd
  · intro m hm
    obtain ⟨x, hx⟩ := setOption_other h
    rw [hx m, if_neg]
    intro e
    rw [readOnly_same e, hn] at hm
    cases hm

theorem validName_store (s : Store) (n : Bytes) : (validName s n).1 = s ∨ (validName s n).1 = rename n s := by
  unfold validName getOption
  by_cases h : readOnly n
  · rw [if_pos h]; exact Or.inl rfl
  · rw [if_neg h]
    cases (lookup s n).bind (·.value) with
    | none => exact Or.inr rfl
    | some x => exact Or.inr rfl

theorem validName_keeps (s : Store) (n : Bytes) : Keeps s (validName s n).1 := by
  rcases validName_store s n with h | h
  · rw [h]; exact Keeps.refl s
  · rw [h]; exact keeps_rename n s

theorem validName_value (s : Store) (n m : Bytes) : valueOf (validName s n).1 m = valueOf s m := by
  rcases validName_store s n with h | h
  · rw [h]
  · rw [h]; exact valueOf_rename s n m

theorem validName_readOnly (s : Store) (n : Bytes) (h : (validName s n).2 = true) : readOnly n = false := by
  unfold validName at h
  by_cases g : readOnly n = true
  · rw [if_pos g] at h; simp at h
  · simpa using g

theorem keeps_setString {home : Bytes → Bytes} {k : Nat} {o o' : Opts} {line : Bytes}
    (h : setString home k o line = some o') : Keeps o.store o'.store := by
  unfold setString at h
  cases hs : splitOption line with
  | none => rw [hs] at h; simp at h; rw [← h]; exact Keeps.refl _
  | some p =>
    rw [hs] at h; dsimp only at h
    by_cases hv : (validName o.store p.1).2 = true
    · rw [if_pos hv, Option.map_eq_some_iff] at h
      obtain ⟨s, h1, rfl⟩ := h
      exact (validName_keeps o.store p.1).trans (keeps_setOption h1 (validName_readOnly _ _ hv))
    · rw [if_neg hv] at h; simp at h; rw [← h]; exact validName_keeps _ _

theorem keeps_setStrings {home : Bytes → Bytes} {k : Nat} {o o' : Opts} {lines : List Bytes}
    (h : setStrings home k o lines = some o') : Keeps o.store o'.store := by
  induction lines generalizing o with
  | nil => simp [setStrings] at h; rw [h]; exact Keeps.refl _
  | cons l ls ih =>
    unfold setStrings at h
    cases hs : setString home k o l with
    | none => rw [hs] at h; simp at h
    | some a => rw [hs] at h; exact (keeps_setString hs).trans (ih h)

theorem keeps_loadLoop {home : Bytes → Bytes} {k n : Nat} : ∀ (f : Nat) (o o' : Opts) (b : Bytes),
    loadLoop home k n f o b = some o' → Keeps o.store o'.store := by
  intro f
  induction f with
  | zero => intro o o' b h; simp [loadLoop] at h
  | succ f ih =>
    intro o o' b h
    unfold loadLoop at h
    by_cases h0 : n = 0
    · rw [if_pos h0] at h; simp at h; rw [h]; exact Keeps.refl _
    · rw [if_neg h0] at h
      by_cases h1 : n = 1
      · rw [if_pos h1] at h; exact ih o o' b h
      · rw [if_neg h1] at h
        by_cases hb : b = []
        · rw [if_pos hb] at h; simp at h; rw [h]; exact Keeps.refl _
        · rw [if_neg hb] at h
          cases hd : doLine home k o (Text.fgets (n - 1) b).1 with
          | none => rw [hd] at h; simp at h
          | some a =>
            rw [hd] at h
            refine Keeps.trans ?_ (ih a o' _ h)
            unfold doLine at hd
            dsimp only at hd
            split at hd
            · simp at hd; rw [hd]; exact Keeps.refl _
            · exact keeps_setString hd

/-- The options of the program, whatever the configuration file and the command line contain: their values
do not change, no name is there twice, no option disappears and its default stays. -/
theorem file_and_line_keep (home : Bytes → Bytes) (fuel k : Nat) (o o1 o2 : Opts) (content : Bytes)
    (args : List Bytes) (h1 : loadFile home fuel o content = some o1) (h2 : setStrings home k o1 args = some o2)
    (hu : Unique o.store) :
    Unique o2.store ∧
    (∀ e ∈ o.store, ∃ e' ∈ o2.store, Same e'.name e.name) ∧
    (∀ n d, defaultOf o.store n = some d → defaultOf o2.store n = some d) ∧
    (∀ n, (∃ t ∈ ["ConfigFile", "AppBin", "AppDir", "Version"], Same n (lit t)) →
      valueOf o2.store n = valueOf o.store n) := by
  have g := (keeps_loadLoop _ _ _ _ h1).trans (keeps_setStrings h2)
  refine ⟨g.1 hu, ?_, g.2.2.1, ?_⟩
  · intro e he
    have : e.name.map WildMask.lower ∈ names o2.store :=
      g.2.1.subset (List.mem_map.2 ⟨e, he, rfl⟩)
    obtain ⟨e', he', hs⟩ := List.mem_map.1 this
    exact ⟨e', he', hs⟩
  · rintro n ⟨t, ht, hs⟩
    apply g.2.2.2
    unfold readOnly isOneOf
    rw [List.any_eq_true]
    exact ⟨t, ht, (same_iff _ _).2 hs⟩

end Verif.OptStore
