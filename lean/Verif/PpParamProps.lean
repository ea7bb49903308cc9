import Verif.PpParam
import Verif.SectionProps
/-
Which parameters a download gets, and what a change of its category and scan-scripts do to them (C104).
-/
namespace Verif.PpParam
open CStr OptStore Section

/-! ### Specification -/

/-- Whether to unpack, and the list of extensions, for downloads of a category: those of the first category of that name, where
an empty list means the one of the option Extensions; otherwise the options Unpack and Extensions. -/
def InForce (c : Config) (category : Bytes) (unpack : Bool) (ext : Bytes) : Prop :=
  ((category = [] ∨ ∀ x ∈ c.cats, ¬ Same x.name category) ∧ unpack = c.unpack ∧ ext = c.extensions) ∨
  (category ≠ [] ∧ ∃ l cat r, c.cats = l ++ cat :: r ∧ Same cat.name category ∧ (∀ x ∈ l, ¬ Same x.name category) ∧ unpack = cat.unpack ∧
    ((cat.extensions = [] ∧ ext = c.extensions) ∨ (cat.extensions ≠ [] ∧ ext = cat.extensions)))

/-- The parameter `m` belongs to a script for post-processing or for the queue which is in the list. -/
def Enabled (c : Config) (ext m : Bytes) : Prop :=
  ∃ s ∈ c.scripts, (s.post = true ∨ s.queue = true) ∧ s.name ∈ names ext ∧ Same (paramName s.name) m

/-- No two parameters have the same name. -/
def Uniq (ps : Params) : Prop := ps.Pairwise (fun a b => ¬ Same a.1 b.1)

/-- The parameter `m` belongs to an extension of the first list which is not in the second one. -/
def OnlyIn (a b m : Bytes) : Prop := ∃ x ∈ names a, (∀ y ∈ names b, ¬ Same x y) ∧ Same (paramName x) m

/-! ### Parameters -/

theorem lower_eq (c : UInt8) : Record.lower c = WildMask.lower c := by
  have h : ∀ n : Fin 256, Record.lower (UInt8.ofNat n.val) = WildMask.lower (UInt8.ofNat n.val) := by decide +kernel
  have := h ⟨c.toNat, c.toNat_lt⟩
  simpa using this

theorem sameName_eq (a b : Bytes) : Record.sameName a b = Rpc.eqNoCase a b := by
  unfold Record.sameName Rpc.eqNoCase
  have : Record.lower = WildMask.lower := funext lower_eq
  rw [this]

theorem same_trans {a b c : Bytes} (h : Same a b) (g : Same b c) : Same a c := Eq.trans h g
theorem same_refl (a : Bytes) : Same a a := rfl

theorem find_nil (m : Bytes) : find [] m = none := rfl

theorem find_cons (p : Bytes × Bytes) (ps : Params) (m : Bytes) : find (p :: ps) m = if Same p.1 m then some p.2 else find ps m := by
  unfold find
  by_cases h : Same p.1 m
  · rw [List.find?_cons_of_pos (by rw [same_iff]; exact h), if_pos h]; rfl
  · rw [List.find?_cons_of_neg (by rw [same_iff]; exact h), if_neg h]

/-- The first entry of the name gets the value; without one it is added. -/
theorem set_nil (n v : Bytes) : set [] n v = if v = [] then [] else [(n, v)] := by
  unfold set Record.setParameter
  cases v <;> rfl

theorem set_cons (p : Bytes × Bytes) (ps : Params) (n v : Bytes) : set (p :: ps) n v =
    if Same p.1 n then (if v = [] then ps else (p.1, v) :: ps) else p :: set ps n v := by
  unfold set Record.setParameter
  simp only [sameName_eq]
  by_cases h : Same p.1 n
  · have h' := (same_iff _ _).2 h
    rw [if_pos h, if_pos (by rw [List.any_cons, h', Bool.true_or])]
    cases v with
    | nil =>
      rw [if_pos (c := [].isEmpty = true) rfl, if_pos rfl, List.eraseP_cons_of_pos (by exact h')]
    | cons x l =>
      rw [if_neg (c := (x :: l).isEmpty = true) (by simp), if_neg (by simp), List.findIdx_cons, h']
      rfl
  · have h' : Rpc.eqNoCase p.1 n = false := by rw [← Bool.not_eq_true, same_iff]; exact h
    rw [if_neg h, List.any_cons, h', Bool.false_or]
    by_cases g : ps.any (fun p => Rpc.eqNoCase p.1 n) = true
    · rw [if_pos g, if_pos g]
      cases v with
      | nil => rw [if_pos (c := [].isEmpty = true) rfl, if_pos (c := [].isEmpty = true) rfl, List.eraseP_cons_of_neg (by rw [h']; exact Bool.false_ne_true)]
      | cons x l =>
        rw [if_neg (c := (x :: l).isEmpty = true) (by simp), if_neg (c := (x :: l).isEmpty = true) (by simp), List.findIdx_cons, h']
        rfl
    · rw [if_neg g, if_neg g]
      cases v <;> rfl

/-- C104: the parameter of a script is its name with a colon. -/
theorem param_of_script (s : Bytes) (h : s.length < 1023) : paramName s = s ++ lit ":" := by
  unfold paramName
  exact List.take_of_length_le (by rw [List.length_append]; exact h)

/-- C104: a parameter which is set has that value afterwards, and no other one changes. -/
theorem find_set (ps : Params) (n v m : Bytes) (hv : v ≠ []) : find (set ps n v) m = if Same n m then some v else find ps m := by
  induction ps with
  | nil => rw [set_nil, if_neg hv, find_cons]
  | cons p ps ih =>
    rw [set_cons]
    by_cases h : Same p.1 n
    · rw [if_pos h, if_neg hv, find_cons, find_cons]
      by_cases g : Same n m
      · rw [if_pos g, if_pos (same_trans h g)]
      · have : ¬ Same p.1 m := fun e => g (same_trans h.symm e)
        rw [if_neg g, if_neg this, if_neg this]
    · rw [if_neg h, find_cons, find_cons, ih]
      by_cases g : Same n m
      · have : ¬ Same p.1 m := fun e => h (same_trans e g.symm)
        rw [if_pos g, if_neg this, if_pos g]
      · rw [if_neg g, if_neg g]

theorem find_none_iff (ps : Params) (m : Bytes) : find ps m = none ↔ ∀ p ∈ ps, ¬ Same p.1 m := by
  induction ps with
  | nil => exact ⟨fun _ p h => (nomatch h), fun _ => rfl⟩
  | cons p ps ih =>
    rw [find_cons]
    by_cases h : Same p.1 m
    · rw [if_pos h]
      exact ⟨fun e => (nomatch e), fun e => absurd h (e p (by simp))⟩
    · rw [if_neg h, ih]
      simp [h]

/-- C104: a parameter which is set to the empty text is removed, and no other one changes. -/
theorem find_clear (ps : Params) (hu : Uniq ps) (n m : Bytes) : find (set ps n []) m = if Same n m then none else find ps m := by
  induction ps with
  | nil => rw [set_nil, if_pos rfl, find_nil]; simp
  | cons p ps ih =>
    have hu' := List.pairwise_cons.mp hu
    rw [set_cons, if_pos rfl, find_cons]
    by_cases h : Same p.1 n
    · rw [if_pos h]
      by_cases g : Same n m
      · rw [if_pos g, find_none_iff]
        intro q hq e
        exact hu'.1 q hq (same_trans h (same_trans g e.symm))
      · rw [if_neg g, if_neg (fun e => g (same_trans h.symm e))]
    · rw [if_neg h, find_cons, ih hu'.2]
      by_cases g : Same n m
      · have : ¬ Same p.1 m := fun e => h (same_trans e g.symm)
        rw [if_pos g, if_neg this, if_pos g]
      · rw [if_neg g, if_neg g]

theorem mem_set (ps : Params) (n v : Bytes) (q : Bytes × Bytes) (h : q ∈ set ps n v) :
    (∃ p ∈ ps, q.1 = p.1) ∨ q.1 = n := by
  induction ps with
  | nil =>
    rw [set_nil] at h
    by_cases e : v = []
    · rw [if_pos e] at h; exact nomatch h
    · rw [if_neg e] at h; rw [List.mem_singleton.mp h]; exact Or.inr rfl
  | cons p ps ih =>
    rw [set_cons] at h
    by_cases g : Same p.1 n
    · rw [if_pos g] at h
      by_cases e : v = []
      · rw [if_pos e] at h; exact Or.inl ⟨q, List.mem_cons_of_mem _ h, rfl⟩
      · rw [if_neg e] at h
        rcases List.mem_cons.mp h with rfl | h
        · exact Or.inl ⟨p, by simp, rfl⟩
        · exact Or.inl ⟨q, List.mem_cons_of_mem _ h, rfl⟩
    · rw [if_neg g] at h
      rcases List.mem_cons.mp h with rfl | h
      · exact Or.inl ⟨q, by simp, rfl⟩
      · rcases ih h with ⟨r, hr, e⟩ | e
        · exact Or.inl ⟨r, List.mem_cons_of_mem _ hr, e⟩
        · exact Or.inr e

/-- C104: names stay unique. -/
theorem uniq_set (ps : Params) (hu : Uniq ps) (n v : Bytes) : Uniq (set ps n v) := by
  induction ps with
  | nil =>
    rw [set_nil]
    by_cases e : v = []
    · rw [if_pos e]; exact List.Pairwise.nil
    · rw [if_neg e]; exact List.pairwise_singleton _ _
  | cons p ps ih =>
    have hu' := List.pairwise_cons.mp hu
    rw [set_cons]
    by_cases g : Same p.1 n
    · rw [if_pos g]
      by_cases e : v = []
      · rw [if_pos e]; exact hu'.2
      · rw [if_neg e]; exact List.pairwise_cons.mpr ⟨hu'.1, hu'.2⟩
    · rw [if_neg g]
      refine List.pairwise_cons.mpr ⟨?_, ih hu'.2⟩
      intro q hq
      rcases mem_set ps n v q hq with ⟨r, hr, e⟩ | e
      · rw [e]; exact hu'.1 r hr
      · rw [e]; exact g

/-! ### What is in force -/

theorem inForce_iff (c : Config) (category : Bytes) (u : Bool) (e : Bytes) :
    InForce c category u e ↔ effective c category = (u, e) := by
  unfold InForce effective
  by_cases h : category = []
  · rw [if_pos h]
    simp [h, Prod.ext_iff, eq_comm]
  · rw [if_neg h]
    cases hf : findCategory c.cats category false with
    | none =>
      dsimp only
      have hn : ∀ x ∈ c.cats, ¬ Same x.name category := by
        intro x hx g
        unfold findCategory at hf
        cases hq : c.cats.find? (fun c => Rpc.eqNoCase c.name category) with
        | some y => rw [hq] at hf; exact nomatch hf
        | none => exact (List.find?_eq_none.mp hq x hx) ((same_iff _ _).2 g)
      rw [Prod.mk.injEq]
      constructor
      · rintro (⟨_, h1, h2⟩ | ⟨_, l, cat, r, h1, h2, _⟩)
        · exact ⟨h1.symm, h2.symm⟩
        · exact absurd h2 (hn cat (by rw [h1]; simp))
      · rintro ⟨h1, h2⟩
        exact Or.inl ⟨Or.inr hn, h1.symm, h2.symm⟩
    | some cat =>
      dsimp only
      rcases (findCategory_spec c.cats category false cat).1 hf with ⟨l, r, h1, h2, h3⟩ | ⟨h, _⟩
      · rw [Prod.mk.injEq]
        constructor
        · rintro (⟨h0 | h0, _⟩ | ⟨_, l', cat', r', g1, g2, g3, g4, g5⟩)
          · exact absurd h0 h
          · exact absurd h2 (h0 cat (by rw [h1]; simp))
          · have : findCategory c.cats category false = some cat' :=
              (findCategory_spec c.cats category false cat').2 (Or.inl ⟨l', r', g1, g2, g3⟩)
            rw [hf, Option.some.injEq] at this
            rw [this]
            refine ⟨g4.symm, ?_⟩
            rcases g5 with ⟨k1, k2⟩ | ⟨k1, k2⟩
            · rw [if_pos k1, k2]
            · rw [if_neg k1, k2]
        · rintro ⟨g1, g2⟩
          refine Or.inr ⟨h, l, cat, r, h1, h2, h3, g1.symm, ?_⟩
          by_cases k : cat.extensions = []
          · rw [if_pos k] at g2; exact Or.inl ⟨k, g2.symm⟩
          · rw [if_neg k] at g2; exact Or.inr ⟨k, g2.symm⟩
      · exact nomatch h

/-! ### The parameters of a new download -/

/-- `ps'` has the parameters of `ps` and, where there is none, `yes` for those in `C`. -/
def Fills (C : Bytes → Prop) (ps ps' : Params) : Prop :=
  ∀ m, (∀ v, find ps m = some v → find ps' m = some v) ∧ (find ps m = none → C m → find ps' m = some (lit "yes")) ∧
    (find ps m = none → ¬ C m → find ps' m = none)

theorem Fills.comp {C D : Bytes → Prop} {a b c : Params} (h : Fills C a b) (g : Fills D b c) : Fills (fun m => C m ∨ D m) a c := by
  intro m
  refine ⟨fun v hv => (g m).1 v ((h m).1 v hv), ?_, ?_⟩
  · intro hn hc
    by_cases k : C m
    · exact (g m).1 _ ((h m).2.1 hn k)
    · rcases hc with hc | hc
      · exact absurd hc k
      · exact (g m).2.1 ((h m).2.2 hn k) hc
  · intro hn hc
    rw [not_or] at hc
    exact (g m).2.2 ((h m).2.2 hn hc.1) hc.2

theorem Fills.congr {C D : Bytes → Prop} {a b : Params} (h : Fills C a b) (e : ∀ m, C m ↔ D m) : Fills D a b :=
  fun m => ⟨(h m).1, fun hn hd => (h m).2.1 hn ((e m).2 hd), fun hn hd => (h m).2.2 hn (fun x => hd ((e m).1 x))⟩

theorem fills_refl (a : Params) : Fills (fun _ => False) a a := fun _ => ⟨fun _ h => h, fun _ h => h.elim, fun h _ => h⟩

theorem fills_addScript (n : Bytes) (ps : Params) (s : Script) :
    Fills (fun m => (s.post = true ∨ s.queue = true) ∧ n = s.name ∧ Same (paramName n) m) ps (addScript n ps s) := by
  intro m
  unfold addScript
  by_cases h : ((s.post || s.queue) && (find ps (paramName n)).isNone && n == s.name) = true
  · rw [if_pos h, find_set _ _ _ _ (by decide)]
    rw [Bool.and_eq_true, Bool.and_eq_true, Bool.or_eq_true, Option.isNone_iff_eq_none, beq_iff_eq] at h
    obtain ⟨⟨h1, h2⟩, h3⟩ := h
    refine ⟨?_, ?_, ?_⟩
    · intro v hv
      by_cases g : Same (paramName n) m
      · exfalso
        have := (find_none_iff ps (paramName n)).1 h2
        have h4 : find ps m ≠ none := by rw [hv]; exact fun e => nomatch e
        exact h4 ((find_none_iff ps m).2 (fun p hp e => this p hp (same_trans e g.symm)))
      · rw [if_neg g]; exact hv
    · rintro _ ⟨_, _, g⟩
      rw [if_pos g]
    · intro hn g
      rw [if_neg (fun e => g ⟨h1, h3, e⟩)]
      exact hn
  · rw [if_neg h]
    refine ⟨fun v hv => hv, ?_, fun hn _ => hn⟩
    rintro hn ⟨g1, g2, g3⟩
    exfalso
    apply h
    rw [Bool.and_eq_true, Bool.and_eq_true, Bool.or_eq_true, Option.isNone_iff_eq_none, beq_iff_eq]
    refine ⟨⟨g1, ?_⟩, g2⟩
    rw [find_none_iff] at hn ⊢
    exact fun p hp e => hn p hp (same_trans e g3)

theorem fills_fold {α : Type} (f : Params → α → Params) (C : α → Bytes → Prop) (hf : ∀ ps x, Fills (C x) ps (f ps x)) (l : List α) :
    ∀ ps, Fills (fun m => ∃ x ∈ l, C x m) ps (l.foldl f ps) := by
  induction l with
  | nil => intro ps; exact (fills_refl ps).congr (fun m => ⟨False.elim, fun ⟨_, h, _⟩ => (nomatch h)⟩)
  | cons x l ih =>
    intro ps
    rw [List.foldl_cons]
    refine ((hf ps x).comp (ih _)).congr (fun m => ?_)
    simp

theorem fills_scripts (c : Config) (ext : Bytes) (ps : Params) :
    Fills (Enabled c ext) ps ((names ext).foldl (fun ps n => c.scripts.foldl (addScript n) ps) ps) := by
  refine (fills_fold _ (fun n m => ∃ s ∈ c.scripts, (s.post = true ∨ s.queue = true) ∧ n = s.name ∧ Same (paramName n) m) ?_ _ ps).congr ?_
  · intro ps n
    exact fills_fold (addScript n) (fun s m => (s.post = true ∨ s.queue = true) ∧ n = s.name ∧ Same (paramName n) m)
      (fun ps s => fills_addScript n ps s) _ ps
  · intro m
    constructor
    · rintro ⟨n, hn, s, hs, h1, rfl, h3⟩
      exact ⟨s, hs, h1, hn, h3⟩
    · rintro ⟨s, hs, h1, hn, h3⟩
      exact ⟨s.name, hn, s, hs, h1, rfl, h3⟩

/-- What a download gets, where `given` are the parameters it has already. -/
def Gets (c : Config) (unpack : Bool) (ext : Bytes) (given : Bytes → Option Bytes) (ps : Params) : Prop :=
  ∀ m, (∀ v, given m = some v → find ps m = some v) ∧
    (given m = none → Same (lit "*Unpack:") m → find ps m = some (yesNo unpack)) ∧
    (given m = none → ¬ Same (lit "*Unpack:") m → Enabled c ext m → find ps m = some (lit "yes")) ∧
    (given m = none → ¬ Same (lit "*Unpack:") m → ¬ Enabled c ext m → find ps m = none)

theorem gets_fold (c : Config) (u : Bool) (e : Bytes) (ps : Params) :
    Gets c u e (find ps) ((names e).foldl (fun ps n => c.scripts.foldl (addScript n) ps)
      (if (find ps (lit "*Unpack:")).isNone then set ps (lit "*Unpack:") (yesNo u) else ps)) := by
  intro m
  have hy : yesNo u ≠ [] := by cases u <;> decide
  generalize hq : (if (find ps (lit "*Unpack:")).isNone then set ps (lit "*Unpack:") (yesNo u) else ps) = q
  have hF := fills_scripts c e q m
  have h1 : ∀ v, find ps m = some v → find q m = some v := by
    intro v hv
    rw [← hq]
    by_cases k : (find ps (lit "*Unpack:")).isNone = true
    · rw [if_pos k, find_set _ _ _ _ hy]
      by_cases g : Same (lit "*Unpack:") m
      · exfalso
        rw [Option.isNone_iff_eq_none, find_none_iff] at k
        have : find ps m = none := (find_none_iff _ _).2 (fun p hp x => k p hp (same_trans x g.symm))
        rw [hv] at this
        exact nomatch this
      · rw [if_neg g]; exact hv
    · rw [if_neg k]; exact hv
  have h2 : find ps m = none → Same (lit "*Unpack:") m → find q m = some (yesNo u) := by
    intro hn g
    rw [← hq, if_pos, find_set _ _ _ _ hy, if_pos g]
    rw [Option.isNone_iff_eq_none]
    rw [find_none_iff] at hn ⊢
    exact fun p hp x => hn p hp (same_trans x g)
  have h3 : find ps m = none → ¬ Same (lit "*Unpack:") m → find q m = none := by
    intro hn g
    rw [← hq]
    by_cases k : (find ps (lit "*Unpack:")).isNone = true
    · rw [if_pos k, find_set _ _ _ _ hy, if_neg g]; exact hn
    · rw [if_neg k]; exact hn
  exact ⟨fun v hv => hF.1 v (h1 v hv), fun hn g => hF.1 _ (h2 hn g), fun hn g k => hF.2.1 (h3 hn g) k, fun hn g k => hF.2.2 (h3 hn g) k⟩

/-- C104: a new download keeps the parameters which were given for it; without one for unpacking it gets that of its category,
and it gets `yes` for each script of the list in force which is one for post-processing or for the queue, and nothing else. -/
theorem new_download (c : Config) (category : Bytes) (u : Bool) (e : Bytes) (h : InForce c category u e) (ps : Params) :
    Gets c u e (find ps) (initParams c category ps false) := by
  unfold initParams
  rw [(inForce_iff c category u e).1 h]
  exact gets_fold c u e ps

theorem clear_fold (l : List Script) : ∀ (ps : Params), Uniq ps →
    Uniq (l.foldl (fun ps s => set ps (paramName s.name) []) ps) ∧
    ∀ m, ((∃ s ∈ l, Same (paramName s.name) m) → find (l.foldl (fun ps s => set ps (paramName s.name) []) ps) m = none) ∧
      ((∀ s ∈ l, ¬ Same (paramName s.name) m) → find (l.foldl (fun ps s => set ps (paramName s.name) []) ps) m = find ps m) := by
  induction l with
  | nil => exact fun ps hu => ⟨hu, fun m => ⟨fun ⟨_, h, _⟩ => (nomatch h), fun _ => rfl⟩⟩
  | cons s l ih =>
    intro ps hu
    rw [List.foldl_cons]
    obtain ⟨h1, h2⟩ := ih (set ps (paramName s.name) []) (uniq_set ps hu _ _)
    refine ⟨h1, fun m => ⟨?_, ?_⟩⟩
    · intro hx
      by_cases k : ∃ s ∈ l, Same (paramName s.name) m
      · exact (h2 m).1 k
      · have k' : ∀ s ∈ l, ¬ Same (paramName s.name) m := fun s hs e => k ⟨s, hs, e⟩
        rw [(h2 m).2 k', find_clear ps hu]
        obtain ⟨t, ht, e⟩ := hx
        rcases List.mem_cons.mp ht with rfl | ht
        · rw [if_pos e]
        · exact absurd e (k' t ht)
    · intro hx
      rw [(h2 m).2 (fun t ht => hx t (List.mem_cons_of_mem _ ht)), find_clear ps hu, if_neg (hx s (by simp))]

/-- C104: if a scan-script changes the category, the parameters of all scripts are dropped first, also those which were given
for the download; the others stay. -/
theorem category_of_scan_script (c : Config) (category : Bytes) (u : Bool) (e : Bytes) (h : InForce c category u e) (ps : Params)
    (hu : Uniq ps) (given : Bytes → Option Bytes)
    (h1 : ∀ m, (∃ s ∈ c.scripts, Same (paramName s.name) m) → given m = none)
    (h2 : ∀ m, (∀ s ∈ c.scripts, ¬ Same (paramName s.name) m) → given m = find ps m) :
    Gets c u e given (initParams c category ps true) := by
  unfold initParams
  rw [(inForce_iff c category u e).1 h]
  dsimp only
  rw [if_pos rfl]
  have hg : given = find (c.scripts.foldl (fun ps s => set ps (paramName s.name) []) ps) := by
    funext m
    have := (clear_fold c.scripts ps hu).2 m
    by_cases k : ∃ s ∈ c.scripts, Same (paramName s.name) m
    · rw [h1 m k, this.1 k]
    · have k' : ∀ s ∈ c.scripts, ¬ Same (paramName s.name) m := fun s hs e => k ⟨s, hs, e⟩
      rw [h2 m k', this.2 k']
  rw [hg]
  exact gets_fold c u e _

theorem uniq_fold {α : Type} (f : Params → α → Params) (hf : ∀ ps x, Uniq ps → Uniq (f ps x)) (l : List α) :
    ∀ ps, Uniq ps → Uniq (l.foldl f ps) := by
  induction l with
  | nil => exact fun ps h => h
  | cons x l ih => exact fun ps h => ih _ (hf ps x h)

theorem uniq_init (c : Config) (category : Bytes) (ps : Params) (reset : Bool) (h : Uniq ps) : Uniq (initParams c category ps reset) := by
  unfold initParams
  dsimp only
  refine uniq_fold _ (fun ps n hu => uniq_fold _ (fun ps s hu => ?_) _ _ hu) _ _ ?_
  · unfold addScript
    split
    · exact uniq_set _ hu _ _
    · exact hu
  · have h1 : Uniq (if reset then c.scripts.foldl (fun ps s => set ps (paramName s.name) []) ps else ps) := by
      split
      · exact uniq_fold _ (fun ps s hu => uniq_set _ hu _ _) _ _ h
      · exact h
    generalize (if reset then c.scripts.foldl (fun ps s => set ps (paramName s.name) []) ps else ps) = q at h1 ⊢
    split
    · exact uniq_set _ h1 _ _
    · exact h1

theorem uniq_message (c : Config) (j : Job) (t : Bytes) (h : Uniq j.params) : Uniq (message c j t).1.params := by
  unfold message
  repeat' split
  all_goals first
    | exact h
    | exact uniq_init _ _ _ _ h
    | exact uniq_set _ h _ _

/-- C104: whatever scan-scripts write, no two parameters of the download have the same name. -/
theorem uniq_messages (c : Config) (msgs : List Bytes) : ∀ (j : Job), Uniq j.params → Uniq (msgs.foldl (fun j t => (message c j t).1) j).params := by
  induction msgs with
  | nil => exact fun j h => h
  | cons t msgs ih =>
    intro j h
    rw [List.foldl_cons]
    exact ih _ (uniq_message c j t h)

/-- C104, refuted: the option Unpack of the category which a scan-script sets has no effect: the download keeps the value of the
category it had before. -/
theorem unpack_not_updated (c : Config) (cat0 cat1 : Bytes) (u0 u1 : Bool) (e0 e1 : Bytes) (h0 : InForce c cat0 u0 e0) (h1 : InForce c cat1 u1 e1)
    (given : Params) (hg : find given (lit "*Unpack:") = none)
    (hu : Uniq given) (hs : ∀ s ∈ c.scripts, ¬ Same (paramName s.name) (lit "*Unpack:")) :
    find (initParams c cat1 (initParams c cat0 given false) true) (lit "*Unpack:") = some (yesNo u0) := by
  have hu := uniq_init c cat0 given false hu
  have g0 := (new_download c cat0 u0 e0 h0 given (lit "*Unpack:")).2.1 hg rfl
  unfold initParams at *
  rw [(inForce_iff c cat1 u1 e1).1 h1]
  dsimp only
  rw [if_pos rfl]
  refine (gets_fold c u1 e1 _ (lit "*Unpack:")).1 _ ?_
  rw [((clear_fold c.scripts _ hu).2 (lit "*Unpack:")).2 hs]
  exact g0

/-! ### A change of the category -/

theorem listed_iff (n : Bytes) (l : List Bytes) : listed n l = true ↔ ∃ o ∈ l, Same n o := by
  unfold listed
  rw [List.any_eq_true]
  simp only [same_iff]

theorem set_fold (k : Bytes → Bool) (v : Bytes) (hv : v ≠ []) (l : List Bytes) : ∀ (ps : Params) (m : Bytes),
    ((∃ x ∈ l, k x = false ∧ Same (paramName x) m) →
      find (l.foldl (fun ps x => if k x then ps else set ps (paramName x) v) ps) m = some v) ∧
    ((∀ x ∈ l, k x = false → ¬ Same (paramName x) m) →
      find (l.foldl (fun ps x => if k x then ps else set ps (paramName x) v) ps) m = find ps m) := by
  induction l with
  | nil => exact fun ps m => ⟨fun ⟨_, h, _⟩ => (nomatch h), fun _ => rfl⟩
  | cons x l ih =>
    intro ps m
    rw [List.foldl_cons]
    obtain ⟨h1, h2⟩ := ih (if k x then ps else set ps (paramName x) v) m
    refine ⟨?_, ?_⟩
    · rintro ⟨y, hy, hk, hs⟩
      by_cases g : ∃ x ∈ l, k x = false ∧ Same (paramName x) m
      · exact h1 g
      · rw [h2 (fun x hx hk e => g ⟨x, hx, hk, e⟩)]
        rcases List.mem_cons.mp hy with rfl | hy
        · rw [hk, if_neg Bool.false_ne_true, find_set _ _ _ _ hv, if_pos hs]
        · exact absurd ⟨y, hy, hk, hs⟩ g
    · intro hx
      rw [h2 (fun y hy => hx y (List.mem_cons_of_mem _ hy))]
      cases hk : k x with
      | true => rw [if_pos rfl]
      | false => rw [if_neg Bool.false_ne_true, find_set _ _ _ _ hv, if_neg (hx x (by simp) hk)]

theorem pieces_lower (sep : UInt8 → Bool) (hs : ∀ c, sep (WildMask.lower c) = sep c) (s : Bytes) : ∀ cur : Bytes,
    Tokens.pieces sep (cur.map WildMask.lower) (s.map WildMask.lower) = (Tokens.pieces sep cur s).map (·.map WildMask.lower) := by
  have hc : ∀ cur : Bytes, (if cur.map WildMask.lower = [] then [] else [(cur.map WildMask.lower).reverse]) =
      ((if cur = [] then [] else [cur.reverse] : List Bytes)).map (·.map WildMask.lower) := by
    intro cur
    cases cur with
    | nil => rfl
    | cons x l => rw [if_neg (by simp), if_neg (by simp)]; simp
  induction s with
  | nil => intro cur; rw [List.map_nil, Tokens.pieces, Tokens.pieces]; exact hc cur
  | cons c s ih =>
    intro cur
    rw [List.map_cons, Tokens.pieces, Tokens.pieces, hs]
    cases sep c with
    | true =>
      rw [if_pos rfl, if_pos rfl, List.map_append, hc, ← ih []]
      rfl
    | false =>
      rw [if_neg Bool.false_ne_true, if_neg Bool.false_ne_true, ← ih (c :: cur), List.map_cons]

theorem dropWhile_lower (s : Bytes) : (s.map WildMask.lower).dropWhile FeedFilter.isBlank = (s.dropWhile FeedFilter.isBlank).map WildMask.lower := by
  have hb : ∀ c : UInt8, FeedFilter.isBlank (WildMask.lower c) = FeedFilter.isBlank c := by
    intro c
    have h : ∀ n : Fin 256, FeedFilter.isBlank (WildMask.lower (UInt8.ofNat n.val)) = FeedFilter.isBlank (UInt8.ofNat n.val) := by decide +kernel
    have := h ⟨c.toNat, c.toNat_lt⟩
    simpa using this
  induction s with
  | nil => rfl
  | cons c s ih =>
    rw [List.map_cons, List.dropWhile_cons, List.dropWhile_cons, hb]
    cases FeedFilter.isBlank c with
    | true => rw [if_pos rfl, if_pos rfl, ih]
    | false => rw [if_neg Bool.false_ne_true, if_neg Bool.false_ne_true, List.map_cons]

theorem trim_lower (s : Bytes) : FeedFilter.trim (s.map WildMask.lower) = (FeedFilter.trim s).map WildMask.lower := by
  unfold FeedFilter.trim FeedFilter.trimRight
  rw [← List.map_reverse, dropWhile_lower, ← List.map_reverse, dropWhile_lower]

theorem names_lower (s : Bytes) : names (s.map WildMask.lower) = (names s).map (·.map WildMask.lower) := by
  unfold names Tokens.tokens
  have hs : ∀ c : UInt8, (fun b : UInt8 => b == 44 || b == 59) (WildMask.lower c) = (fun b : UInt8 => b == 44 || b == 59) c := by
    intro c
    have h : ∀ n : Fin 256, (fun b : UInt8 => b == 44 || b == 59) (WildMask.lower (UInt8.ofNat n.val)) =
        (fun b : UInt8 => b == 44 || b == 59) (UInt8.ofNat n.val) := by decide +kernel
    have := h ⟨c.toNat, c.toNat_lt⟩
    simpa using this
  have := pieces_lower (fun b => b == 44 || b == 59) hs s []
  rw [List.map_nil] at this
  rw [this, List.map_map]
  have e : (FeedFilter.trim ∘ fun x : Bytes => x.map WildMask.lower) = (fun x : Bytes => x.map WildMask.lower) ∘ FeedFilter.trim := by
    funext x; exact trim_lower x
  rw [e, ← List.map_map, List.filter_map]
  congr 1
  apply List.filter_congr
  intro x _
  cases x <;> rfl

theorem same_names {a b : Bytes} (h : Same a b) (x : Bytes) (hx : x ∈ names a) : ∃ y ∈ names b, Same x y := by
  have e : (names a).map (·.map WildMask.lower) = (names b).map (·.map WildMask.lower) := by
    rw [← names_lower, ← names_lower, h]
  have : x.map WildMask.lower ∈ (names a).map (·.map WildMask.lower) := List.mem_map.mpr ⟨x, hx, rfl⟩
  rw [e] at this
  obtain ⟨y, hy, hxy⟩ := List.mem_map.mp this
  exact ⟨y, hy, hxy.symm⟩

/-- C104: with a change of the category of a download which is not in post-processing, the scripts which only the old category
has are switched off and those which only the new one has are switched on, unpacking is set if the categories differ in it, and
nothing else changes; without the request to apply parameters nothing changes at all. -/
theorem category_changed (c : Config) (old new : Bytes) (u0 u1 : Bool) (e0 e1 : Bytes) (h0 : InForce c old u0 e0) (h1 : InForce c new u1 e1)
    (ps : Params) :
    setCategory c false old new false ps = (new, ps) ∧ (setCategory c false old new true ps).1 = new ∧
    ∀ m, (OnlyIn e0 e1 m → find (setCategory c false old new true ps).2 m = some (lit "no")) ∧
      (¬ OnlyIn e0 e1 m → OnlyIn e1 e0 m → find (setCategory c false old new true ps).2 m = some (lit "yes")) ∧
      (¬ OnlyIn e0 e1 m → ¬ OnlyIn e1 e0 m → Same (lit "*Unpack:") m → u0 ≠ u1 →
        find (setCategory c false old new true ps).2 m = some (yesNo u1)) ∧
      (¬ OnlyIn e0 e1 m → ¬ OnlyIn e1 e0 m → (¬ Same (lit "*Unpack:") m ∨ u0 = u1) →
        find (setCategory c false old new true ps).2 m = find ps m) := by
  refine ⟨rfl, ?_, ?_⟩
  · unfold setCategory
    dsimp only
    rw [if_neg Bool.false_ne_true, if_neg (by decide)]
    split <;> rfl
  intro m
  unfold setCategory
  dsimp only
  rw [if_neg Bool.false_ne_true, (inForce_iff c old u0 e0).1 h0, (inForce_iff c new u1 e1).1 h1]
  dsimp only
  rw [if_neg (by decide)]
  have hy : yesNo u1 ≠ [] := by cases u1 <;> decide
  generalize hq : (if u0 != u1 then set ps (lit "*Unpack:") (yesNo u1) else ps) = q
  have q1 : Same (lit "*Unpack:") m → u0 ≠ u1 → find q m = some (yesNo u1) := by
    intro g k
    rw [← hq, if_pos (bne_iff_ne.mpr k), find_set _ _ _ _ hy, if_pos g]
  have q2 : (¬ Same (lit "*Unpack:") m ∨ u0 = u1) → find q m = find ps m := by
    intro g
    rw [← hq]
    by_cases k : u0 = u1
    · rw [if_neg (by simp [k])]
    · rw [if_pos (bne_iff_ne.mpr k), find_set _ _ _ _ hy, if_neg]
      rcases g with g | g
      · exact g
      · exact absurd g k
  have oiff : ∀ a b, OnlyIn a b m ↔ ∃ x ∈ names a, listed x (names b) = false ∧ Same (paramName x) m := by
    intro a b
    unfold OnlyIn
    constructor
    · rintro ⟨x, hx, h1, h2⟩
      refine ⟨x, hx, ?_, h2⟩
      rw [← Bool.not_eq_true, listed_iff]
      rintro ⟨o, ho, hs⟩
      exact h1 o ho hs
    · rintro ⟨x, hx, h1, h2⟩
      refine ⟨x, hx, ?_, h2⟩
      intro y hy hs
      rw [← Bool.not_eq_true, listed_iff] at h1
      exact h1 ⟨y, hy, hs⟩
  by_cases hs : Rpc.eqNoCase e0 e1 = true
  · rw [if_pos hs]
    have hS : Same e0 e1 := (same_iff _ _).1 hs
    have n1 : ¬ OnlyIn e0 e1 m := by
      rintro ⟨x, hx, g, _⟩
      obtain ⟨y, hy, e⟩ := same_names hS x hx
      exact g y hy e
    have n2 : ¬ OnlyIn e1 e0 m := by
      rintro ⟨x, hx, g, _⟩
      obtain ⟨y, hy, e⟩ := same_names hS.symm x hx
      exact g y hy e
    exact ⟨fun g => absurd g n1, fun _ g => absurd g n2, fun _ _ g k => q1 g k, fun _ _ g => q2 g⟩
  · rw [if_neg hs]
    dsimp only
    obtain ⟨a1, a2⟩ := set_fold (fun x => listed x (names e0)) (lit "yes") (by decide) (names e1) q m
    obtain ⟨b1, b2⟩ := set_fold (fun x => listed x (names e1)) (lit "no") (by decide) (names e0)
      ((names e1).foldl (fun ps x => if listed x (names e0) then ps else set ps (paramName x) (lit "yes")) q) m
    have no : ∀ a b, ¬ OnlyIn a b m → ∀ x ∈ names a, listed x (names b) = false → ¬ Same (paramName x) m :=
      fun a b h x hx hk e => h ((oiff a b).2 ⟨x, hx, hk, e⟩)
    refine ⟨fun g => b1 ((oiff _ _).1 g), ?_, ?_, ?_⟩
    · intro g0 g1
      rw [b2 (no _ _ g0)]
      exact a1 ((oiff _ _).1 g1)
    · intro g0 g1 g2 g3
      rw [b2 (no _ _ g0), a2 (no _ _ g1)]
      exact q1 g2 g3
    · intro g0 g1 g2
      rw [b2 (no _ _ g0), a2 (no _ _ g1)]
      exact q2 g2

/-- C104: nothing changes for a download in post-processing. -/
theorem category_in_post (c : Config) (old new : Bytes) (apply : Bool) (ps : Params) :
    (setCategory c true old new apply ps) = (old, ps) := by
  unfold setCategory
  cases apply with
  | false => rfl
  | true =>
    dsimp only
    rw [if_neg (by decide), if_pos (c := true = true) rfl, if_pos (c := Rpc.eqNoCase _ _ = true) ((same_iff _ _).2 rfl), if_neg (by simp)]

/-! ### Scan-scripts -/

/-- C104: the scripts of a list are run in the order of the scripts, not of the list, and each of them once, whatever the list. -/
theorem scriptList_spec (scripts : List Script) (list : Bytes) :
    (scriptList scripts list).Sublist scripts ∧ ∀ s, s ∈ scriptList scripts list ↔ s ∈ scripts ∧ s.name ∈ names list := by
  unfold scriptList
  refine ⟨List.filter_sublist, fun s => ?_⟩
  rw [List.mem_filter, List.contains_iff_mem]

/-- C104, refuted: scan-scripts which only a category enables are never run. -/
theorem category_scan_scripts_lost (c : Config) (h : ∀ s ∈ c.scripts, s.scan = true → s.name ∉ names c.extensions) (category : Bytes) :
    scanScripts c category = [] := by
  unfold scanScripts
  rw [if_neg]
  unfold hasScanScripts
  rw [List.any_eq_true]
  rintro ⟨s, hs, hk⟩
  obtain ⟨h1, h2⟩ := ((scriptList_spec _ _).2 s).1 hs
  exact h s h1 hk h2

/-- C104: otherwise they are the scan-scripts in force for the category. -/
theorem scan_scripts (c : Config) (h : ∃ s ∈ c.scripts, s.scan = true ∧ s.name ∈ names c.extensions) (category : Bytes) (u : Bool) (e : Bytes)
    (hf : InForce c category u e) :
    (scanScripts c category).Sublist c.scripts ∧
      ∀ s, s ∈ scanScripts c category ↔ s ∈ c.scripts ∧ s.scan = true ∧ s.name ∈ names e := by
  unfold scanScripts
  rw [if_pos, (inForce_iff c category u e).1 hf]
  · refine ⟨List.filter_sublist.trans (scriptList_spec _ _).1, fun s => ?_⟩
    rw [List.mem_filter, (scriptList_spec _ _).2]
    exact ⟨fun ⟨⟨a, b⟩, c⟩ => ⟨a, c, b⟩, fun ⟨a, b, c⟩ => ⟨⟨a, c⟩, b⟩⟩
  · obtain ⟨s, h1, h2, h3⟩ := h
    exact List.any_eq_true.mpr ⟨s, ((scriptList_spec _ _).2 s).2 ⟨h1, h3⟩, h2⟩

/-- What a scan-script can ask for. -/
inductive Cmd where
  | name (v : Bytes)
  | category (v : Bytes)
  | param (n v : Bytes)
  | priority (v : Bytes)
  | top (v : Bytes)
  | paused (v : Bytes)
  | dupeKey (v : Bytes)
  | dupeScore (v : Bytes)
  | dupeMode (v : Bytes) (m : DupeMode)

/-- Numbers are written with digits; the mode has one of three words in any case; the name of a parameter has no equals sign. -/
def Cmd.Valid : Cmd → Prop
  | .name _ | .category _ | .dupeKey _ => True
  | .param n _ => (61 : UInt8) ∉ n
  | .priority v | .top v | .paused v | .dupeScore v => TaskDef.Digits v ∧ OptValue.valueIn 10 v < 2 ^ 31
  | .dupeMode v m => Same v (lit (match m with | .score => "score" | .all => "all" | .force => "force"))

def Cmd.text : Cmd → Bytes
  | .name v => lit "[NZB] NZBNAME=" ++ v
  | .category v => lit "[NZB] CATEGORY=" ++ v
  | .param n v => lit "[NZB] NZBPR_" ++ n ++ lit "=" ++ v
  | .priority v => lit "[NZB] PRIORITY=" ++ v
  | .top v => lit "[NZB] TOP=" ++ v
  | .paused v => lit "[NZB] PAUSED=" ++ v
  | .dupeKey v => lit "[NZB] DUPEKEY=" ++ v
  | .dupeScore v => lit "[NZB] DUPESCORE=" ++ v
  | .dupeMode v _ => lit "[NZB] DUPEMODE=" ++ v

/-- What the command does. -/
def Cmd.effect (c : Config) (j : Job) : Cmd → Job
  | .name v => { j with nzbName := v }
  | .category v => { j with category := v, params := initParams c v j.params true }
  | .param n v => { j with params := set j.params n v }
  | .priority v => { j with priority := OptValue.valueIn 10 v }
  | .top v => { j with addTop := OptValue.valueIn 10 v != 0 }
  | .paused v => { j with addPaused := OptValue.valueIn 10 v != 0 }
  | .dupeKey v => { j with dupeKey := v }
  | .dupeScore v => { j with dupeScore := OptValue.valueIn 10 v }
  | .dupeMode _ m => { j with dupeMode := m }

theorem cut_append (p s : Bytes) : cut p (p ++ s) = some s := by
  unfold cut
  rw [if_pos (startsWith_append p s), List.drop_left]

theorem cut_skip (p q s : Bytes) (h : startsWith (p.take q.length) q = false) : cut p (q ++ s) = none := by
  unfold cut
  rw [if_neg]
  intro g
  unfold startsWith at g h
  rw [List.isPrefixOf_iff_prefix] at g
  obtain ⟨t, e⟩ := g
  rw [← Bool.not_eq_true, List.isPrefixOf_iff_prefix] at h
  apply h
  have := congrArg (List.take q.length) e
  rw [List.take_left, List.take_append] at this
  exact ⟨_, this⟩

theorem intOf_writes (v : Bytes) (h : TaskDef.Digits v ∧ OptValue.valueIn 10 v < 2 ^ 31) : intOf v = OptValue.valueIn 10 v := by
  have := TaskDef.intOf_digits v [] h.1 (fun _ e => nomatch e) h.2
  rwa [List.append_nil] at this

theorem takeWhile_name (n v : Bytes) (h : (61 : UInt8) ∉ n) :
    (n ++ lit "=" ++ v).takeWhile (· ≠ 61) = n ∧ ((n ++ lit "=" ++ v).dropWhile (· ≠ 61)).drop 1 = v := by
  induction n with
  | nil => exact ⟨rfl, rfl⟩
  | cons c n ih =>
    rw [List.mem_cons, not_or] at h
    have hc : decide (c ≠ 61) = true := decide_eq_true (fun e => h.1 e.symm)
    obtain ⟨i1, i2⟩ := ih h.2
    constructor
    · rw [List.cons_append, List.cons_append, List.takeWhile_cons, if_pos hc, i1]
    · rw [List.cons_append, List.cons_append, List.dropWhile_cons, if_pos hc, i2]

/-- C104: a command of a scan-script does what it says and nothing else. -/
theorem command_effect (c : Config) (j : Job) (cmd : Cmd) (h : cmd.Valid) : message c j cmd.text = (cmd.effect c j, false) := by
  have pre : ∀ w : String, ∀ v : Bytes, lit ("[NZB] " ++ w) = lit "[NZB] " ++ lit w → cut (lit "[NZB] ") (lit ("[NZB] " ++ w) ++ v) = some (lit w ++ v) := by
    intro w v e
    rw [e, List.append_assoc, cut_append]
  unfold message
  cases cmd with
  | name v =>
    have e1 := pre "NZBNAME=" v (by decide)
    rw [Cmd.text, show lit "[NZB] NZBNAME=" = lit ("[NZB] " ++ "NZBNAME=") by decide, e1]
    dsimp only
    rw [cut_append]
    rfl
  | category v =>
    have e1 := pre "CATEGORY=" v (by decide)
    rw [Cmd.text, show lit "[NZB] CATEGORY=" = lit ("[NZB] " ++ "CATEGORY=") by decide, e1]
    dsimp only
    rw [cut_skip (lit "NZBNAME=") _ v (by decide)]
    dsimp only
    rw [cut_append]
    rfl
  | param n v =>
    have e1 := pre "NZBPR_" (n ++ lit "=" ++ v) (by decide)
    rw [Cmd.text, show lit "[NZB] NZBPR_" = lit ("[NZB] " ++ "NZBPR_") by decide, List.append_assoc, List.append_assoc, ← List.append_assoc n, e1]
    dsimp only
    rw [cut_skip (lit "NZBNAME=") _ _ (by decide)]
    dsimp only
    rw [cut_skip (lit "CATEGORY=") _ _ (by decide)]
    dsimp only
    rw [cut_append]
    dsimp only
    rw [if_pos (by simp [lit]), (takeWhile_name n v h).1, (takeWhile_name n v h).2]
    rfl
  | priority v =>
    have e1 := pre "PRIORITY=" v (by decide)
    rw [Cmd.text, show lit "[NZB] PRIORITY=" = lit ("[NZB] " ++ "PRIORITY=") by decide, e1]
    dsimp only
    rw [cut_skip (lit "NZBNAME=") _ _ (by decide), cut_skip (lit "CATEGORY=") _ _ (by decide),
      cut_skip (lit "NZBPR_") _ _ (by decide), cut_append]
    dsimp only
    rw [intOf_writes v h]
    rfl
  | top v =>
    have e1 := pre "TOP=" v (by decide)
    rw [Cmd.text, show lit "[NZB] TOP=" = lit ("[NZB] " ++ "TOP=") by decide, e1]
    dsimp only
    rw [cut_skip (lit "NZBNAME=") _ _ (by decide), cut_skip (lit "CATEGORY=") _ _ (by decide),
      cut_skip (lit "NZBPR_") _ _ (by decide), cut_skip (lit "PRIORITY=") _ _ (by decide), cut_append]
    dsimp only
    rw [intOf_writes v h]
    unfold Cmd.effect
    dsimp only
    generalize OptValue.valueIn 10 v = k
    cases k <;> rfl
  | paused v =>
    have e1 := pre "PAUSED=" v (by decide)
    rw [Cmd.text, show lit "[NZB] PAUSED=" = lit ("[NZB] " ++ "PAUSED=") by decide, e1]
    dsimp only
    rw [cut_skip (lit "NZBNAME=") _ _ (by decide), cut_skip (lit "CATEGORY=") _ _ (by decide),
      cut_skip (lit "NZBPR_") _ _ (by decide), cut_skip (lit "PRIORITY=") _ _ (by decide),
      cut_skip (lit "TOP=") _ _ (by decide), cut_append]
    dsimp only
    rw [intOf_writes v h]
    unfold Cmd.effect
    dsimp only
    generalize OptValue.valueIn 10 v = k
    cases k <;> rfl
  | dupeKey v =>
    have e1 := pre "DUPEKEY=" v (by decide)
    rw [Cmd.text, show lit "[NZB] DUPEKEY=" = lit ("[NZB] " ++ "DUPEKEY=") by decide, e1]
    dsimp only
    rw [cut_skip (lit "NZBNAME=") _ _ (by decide), cut_skip (lit "CATEGORY=") _ _ (by decide),
      cut_skip (lit "NZBPR_") _ _ (by decide), cut_skip (lit "PRIORITY=") _ _ (by decide),
      cut_skip (lit "TOP=") _ _ (by decide), cut_skip (lit "PAUSED=") _ _ (by decide), cut_append]
    rfl
  | dupeScore v =>
    have e1 := pre "DUPESCORE=" v (by decide)
    rw [Cmd.text, show lit "[NZB] DUPESCORE=" = lit ("[NZB] " ++ "DUPESCORE=") by decide, e1]
    dsimp only
    rw [cut_skip (lit "NZBNAME=") _ _ (by decide), cut_skip (lit "CATEGORY=") _ _ (by decide),
      cut_skip (lit "NZBPR_") _ _ (by decide), cut_skip (lit "PRIORITY=") _ _ (by decide),
      cut_skip (lit "TOP=") _ _ (by decide), cut_skip (lit "PAUSED=") _ _ (by decide),
      cut_skip (lit "DUPEKEY=") _ _ (by decide), cut_append]
    dsimp only
    rw [intOf_writes v h]
    rfl
  | dupeMode v m =>
    have e1 := pre "DUPEMODE=" v (by decide)
    rw [Cmd.text, show lit "[NZB] DUPEMODE=" = lit ("[NZB] " ++ "DUPEMODE=") by decide, e1]
    dsimp only
    rw [cut_skip (lit "NZBNAME=") _ _ (by decide), cut_skip (lit "CATEGORY=") _ _ (by decide),
      cut_skip (lit "NZBPR_") _ _ (by decide), cut_skip (lit "PRIORITY=") _ _ (by decide),
      cut_skip (lit "TOP=") _ _ (by decide), cut_skip (lit "PAUSED=") _ _ (by decide),
      cut_skip (lit "DUPEKEY=") _ _ (by decide), cut_skip (lit "DUPESCORE=") _ _ (by decide), cut_append]
    dsimp only
    have ns : ∀ a b : String, ¬ Same (lit a) (lit b) → Same v (lit a) → ¬ Rpc.eqNoCase v (lit b) = true :=
      fun a b hab ha hb => hab (same_trans ha.symm ((same_iff _ _).1 hb))
    cases m with
    | score => rw [if_pos ((same_iff _ _).2 h)]; rfl
    | all => rw [if_neg (ns "all" "score" (by decide) h), if_pos ((same_iff _ _).2 h)]; rfl
    | force =>
      rw [if_neg (ns "force" "score" (by decide) h), if_neg (ns "force" "all" (by decide) h), if_pos ((same_iff _ _).2 h)]; rfl

/-- C104: a message without the mark is no command, and a mark with another word is reported; neither changes the download. -/
theorem other_messages (c : Config) (j : Job) (msg : Bytes)
    (h : ∀ w ∈ ["NZBNAME=", "CATEGORY=", "NZBPR_", "PRIORITY=", "TOP=", "PAUSED=", "DUPEKEY=", "DUPESCORE=", "DUPEMODE="],
      ∀ v, msg ≠ lit "[NZB] " ++ lit w ++ v) : (message c j msg).1 = j ∧ ((message c j msg).2 = true ↔ ∃ t, msg = lit "[NZB] " ++ t) := by
  have sw : ∀ p s t : Bytes, cut p s = some t → s = p ++ t := by
    intro p s t e
    unfold cut at e
    by_cases g : startsWith p s = true
    · rw [if_pos g, Option.some.injEq] at e
      unfold startsWith at g
      rw [List.isPrefixOf_iff_prefix] at g
      obtain ⟨r, hr⟩ := g
      rw [← hr, List.drop_left] at e
      rw [← hr, e]
    · rw [if_neg g] at e; exact nomatch e
  unfold message
  cases h0 : cut (lit "[NZB] ") msg with
  | none =>
    refine ⟨rfl, fun e => (nomatch e), ?_⟩
    rintro ⟨t, rfl⟩
    rw [cut_append] at h0
    exact nomatch h0
  | some t =>
    have e0 := sw _ _ _ h0
    have no : ∀ w ∈ ["NZBNAME=", "CATEGORY=", "NZBPR_", "PRIORITY=", "TOP=", "PAUSED=", "DUPEKEY=", "DUPESCORE=", "DUPEMODE="],
        cut (lit w) t = none := by
      intro w hw
      cases g : cut (lit w) t with
      | none => rfl
      | some v =>
        exfalso
        apply h w hw v
        rw [e0, sw _ _ _ g, List.append_assoc]
    dsimp only
    rw [no "NZBNAME=" (by simp), no "CATEGORY=" (by simp), no "NZBPR_" (by simp), no "PRIORITY=" (by simp), no "TOP=" (by simp),
      no "PAUSED=" (by simp), no "DUPEKEY=" (by simp), no "DUPESCORE=" (by simp), no "DUPEMODE=" (by simp)]
    exact ⟨rfl, fun _ => ⟨t, e0⟩, fun _ => rfl⟩

/-! ### Examples -/

def exConfig : Config :=
  { unpack := true, extensions := lit "Clean.py, Mail.py",
    cats := [⟨lit "Movies", [], false, lit "Clean.py; Tag.py", []⟩, ⟨lit "TV", [], true, [], []⟩],
    scripts := [⟨lit "Clean.py", true, false, false⟩, ⟨lit "Mail.py", true, false, false⟩, ⟨lit "Tag.py", true, false, true⟩] }

example : initParams exConfig (lit "movies") [(lit "clean.py:", lit "no"), (lit "x", lit "y")] false =
    [(lit "clean.py:", lit "no"), (lit "x", lit "y"), (lit "*Unpack:", lit "no"), (lit "Tag.py:", lit "yes")] := by decide +kernel
example : InForce exConfig (lit "movies") false (lit "Clean.py; Tag.py") := (inForce_iff _ _ _ _).2 (by decide +kernel)
example : setCategory exConfig false (lit "TV") (lit "Movies") true [(lit "*Unpack:", lit "yes"), (lit "Mail.py:", lit "yes")] =
    (lit "Movies", [(lit "*Unpack:", lit "no"), (lit "Mail.py:", lit "no"), (lit "Tag.py:", lit "yes")]) := by decide +kernel
example : OnlyIn (lit "Clean.py, Mail.py") (lit "Clean.py; Tag.py") (lit "mail.PY:") := ⟨lit "Mail.py", by decide +kernel, by decide +kernel, by decide +kernel⟩
example : scanScripts exConfig (lit "Movies") = [] := by decide +kernel
example : (Cmd.dupeMode (lit "FORCE") .force).Valid ∧ (Cmd.priority (lit "50")).Valid := ⟨(by decide : Same (lit "FORCE") (lit "force")), ⟨by decide, by decide⟩, by decide⟩
example : Uniq [(lit "a", lit "1"), (lit "b", lit "2")] := by unfold Uniq; decide

end Verif.PpParam
