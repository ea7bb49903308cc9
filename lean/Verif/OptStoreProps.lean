import Verif.OptStore
import Verif.TextProps
/-
The options of the program and the configuration file (C99).
-/
namespace Verif.OptStore
open CStr

/-! ### Names and values -/

/-- Two names are the same, ignoring the case. -/
def Same (a b : Bytes) : Prop := a.map WildMask.lower = b.map WildMask.lower

instance (a b : Bytes) : Decidable (Same a b) := inferInstanceAs (Decidable (_ = _))

theorem same_iff (a b : Bytes) : Rpc.eqNoCase a b = true ↔ Same a b := by
  unfold Rpc.eqNoCase Same; rw [beq_iff_eq]

theorem Same.symm {a b : Bytes} (h : Same a b) : Same b a := Eq.symm h

theorem Same.trans {a b c : Bytes} (h : Same a b) (g : Same b c) : Same a c := Eq.trans h g

/-- The value which an option has. -/
def valueOf (s : Store) (n : Bytes) : Option Bytes := (lookup s n).bind (·.value)

/-- No two options have the same name. -/
def Unique (s : Store) : Prop := s.Pairwise (fun a b => ¬ Same a.name b.name)

theorem lookup_cons (e : Entry) (s : Store) (n : Bytes) :
    lookup (e :: s) n = if Same e.name n then some e else lookup s n := by
  unfold lookup
  rw [List.find?_cons]
  by_cases h : Same e.name n
  · rw [if_pos h, (same_iff _ _).2 h]
  · rw [if_neg h]
    have : Rpc.eqNoCase e.name n = false := by
      rw [← Bool.not_eq_true]; exact fun g => h ((same_iff _ _).1 g)
    rw [this]

theorem rename_cons (n : Bytes) (e : Entry) (s : Store) :
    rename n (e :: s) = if Same e.name n then { e with name := n } :: s else e :: rename n s := by
  by_cases h : Same e.name n
  · simp [rename, (same_iff _ _).2 h, h]
  · have : Rpc.eqNoCase e.name n = false := by
      rw [← Bool.not_eq_true]; exact fun g => h ((same_iff _ _).1 g)
    simp [rename, this, h]

theorem setValue_cons (n v : Bytes) (e : Entry) (s : Store) :
    setValue n v (e :: s) = if Same e.name n then { e with value := some v, dflt := some (e.dflt.getD v) } :: s
      else e :: setValue n v s := by
  by_cases h : Same e.name n
  · simp [setValue, (same_iff _ _).2 h, h]
  · have : Rpc.eqNoCase e.name n = false := by
      rw [← Bool.not_eq_true]; exact fun g => h ((same_iff _ _).1 g)
    simp [setValue, this, h]

/-- Renaming changes only the spelling. -/
theorem lookup_rename (s : Store) (n m : Bytes) :
    (lookup (rename n s) m).map (fun e => (e.value, e.dflt)) = (lookup s m).map (fun e => (e.value, e.dflt)) := by
  induction s with
  | nil => rfl
  | cons e s ih =>
    rw [rename_cons, lookup_cons]
    by_cases h : Same e.name n
    · rw [if_pos h, lookup_cons]
      by_cases g : Same e.name m
      · rw [if_pos g, if_pos (show Same n m from h.symm.trans g)]; rfl
      · rw [if_neg g, if_neg (fun k => g (h.trans k))]
    · rw [if_neg h, lookup_cons]
      by_cases g : Same e.name m
      · rw [if_pos g, if_pos g]
      · rw [if_neg g, if_neg g, ih]

theorem valueOf_eq (s : Store) (n : Bytes) :
    valueOf s n = ((lookup s n).map (fun e => (e.value, e.dflt))).bind (·.1) := by
  unfold valueOf; cases lookup s n <;> rfl

/-- The default of an option: the first value which it had. -/
def defaultOf (s : Store) (n : Bytes) : Option Bytes := (lookup s n).bind (·.dflt)

theorem defaultOf_eq (s : Store) (n : Bytes) :
    defaultOf s n = ((lookup s n).map (fun e => (e.value, e.dflt))).bind (·.2) := by
  unfold defaultOf; cases lookup s n <;> rfl

theorem valueOf_rename (s : Store) (n m : Bytes) : valueOf (rename n s) m = valueOf s m := by
  rw [valueOf_eq, valueOf_eq, lookup_rename]

theorem defaultOf_rename (s : Store) (n m : Bytes) : defaultOf (rename n s) m = defaultOf s m := by
  rw [defaultOf_eq, defaultOf_eq, lookup_rename]

theorem valueOf_same {s : Store} {a b : Bytes} (h : Same a b) : valueOf s a = valueOf s b := by
  unfold valueOf
  have : lookup s a = lookup s b := by
    induction s with
    | nil => rfl
    | cons e s ih =>
      rw [lookup_cons, lookup_cons, ih]
      by_cases g : Same e.name a
      · rw [if_pos g, if_pos (g.trans h)]
      · rw [if_neg g, if_neg (fun k => g (k.trans h.symm))]
  rw [this]

theorem lookup_append (s : Store) (e : Entry) (m : Bytes) :
    lookup (s ++ [e]) m = if (lookup s m).isSome then lookup s m else if Same e.name m then some e else none := by
  induction s with
  | nil =>
    show lookup [e] m = _
    rw [lookup_cons]; rfl
  | cons a s ih =>
    rw [List.cons_append, lookup_cons, lookup_cons, ih]
    by_cases h : Same a.name m
    · simp [h]
    · simp [h]

theorem valueOf_findOrAdd (s : Store) (n m : Bytes) : valueOf (findOrAdd s n) m = valueOf s m := by
  unfold findOrAdd
  by_cases h : (lookup s n).isSome
  · rw [if_pos h, valueOf_rename]
  · rw [if_neg h]
    unfold valueOf
    rw [lookup_append]
    cases hl : lookup s m with
    | some e => simp
    | none =>
      by_cases g : Same n m
      · simp [g]
      · simp [g]

theorem defaultOf_findOrAdd (s : Store) (n m : Bytes) : defaultOf (findOrAdd s n) m = defaultOf s m := by
  unfold findOrAdd
  by_cases h : (lookup s n).isSome
  · rw [if_pos h, defaultOf_rename]
  · rw [if_neg h]
    unfold defaultOf
    rw [lookup_append]
    cases hl : lookup s m with
    | some e => simp
    | none =>
      by_cases g : Same n m
      · simp [g]
      · simp [g]

theorem lookup_findOrAdd (s : Store) (n : Bytes) : (lookup (findOrAdd s n) n).isSome = true := by
  unfold findOrAdd
  by_cases h : (lookup s n).isSome
  · rw [if_pos h]
    have := congrArg Option.isSome (lookup_rename s n n)
    rw [Option.isSome_map, Option.isSome_map] at this
    rw [this]; exact h
  · rw [if_neg h, lookup_append, if_neg h, if_pos (show Same n n from rfl)]; rfl

theorem lookup_setValue (s : Store) (n v m : Bytes) :
    (lookup (setValue n v s) m).map (fun e => (e.value, e.dflt)) =
      if Same m n then (lookup s m).map (fun e => (some v, some (e.dflt.getD v)))
      else (lookup s m).map (fun e => (e.value, e.dflt)) := by
  induction s with
  | nil => simp [setValue, lookup]
  | cons e s ih =>
    rw [setValue_cons, lookup_cons]
    by_cases h : Same e.name n
    · rw [if_pos h, lookup_cons]
      by_cases g : Same e.name m
      · rw [if_pos g, if_pos (show Same ({ e with value := some v, dflt := some (e.dflt.getD v) } : Entry).name m from g),
          if_pos (g.symm.trans h)]; rfl
      · rw [if_neg g, if_neg (show ¬ Same ({ e with value := some v, dflt := some (e.dflt.getD v) } : Entry).name m from g),
          if_neg (fun k => g (h.trans k.symm))]
    · rw [if_neg h, lookup_cons]
      by_cases g : Same e.name m
      · rw [if_pos g, if_pos g, if_neg (fun k => h (g.trans k))]
      · rw [if_neg g, if_neg g, ih]

theorem valueOf_setValue (s : Store) (n v m : Bytes) (h : (lookup s n).isSome = true) :
    valueOf (setValue n v s) m = if Same m n then some v else valueOf s m := by
  rw [valueOf_eq, lookup_setValue]
  by_cases g : Same m n
  · rw [if_pos g, if_pos g]
    have : (lookup s m).isSome = true := by
      have e : lookup s m = lookup s n := by
        clear h
        induction s with
        | nil => rfl
        | cons a s ih =>
          rw [lookup_cons, lookup_cons, ih]
          by_cases k : Same a.name m
          · rw [if_pos k, if_pos (k.trans g)]
          · rw [if_neg k, if_neg (fun l => k (l.trans g.symm))]
      rw [e]; exact h
    cases hl : lookup s m with
    | none => rw [hl] at this; simp at this
    | some e => rfl
  · rw [if_neg g, if_neg g, ← valueOf_eq]

/-! ### The expansion of variables -/

/-- A value as the user writes it: text and references to other options. -/
inductive Piece where
  | text (t : Bytes)
  | ref (n : Bytes)
  deriving DecidableEq, Repr

/-- How it is written: a reference is `${name}`. -/
def write : List Piece → Bytes
  | [] => []
  | .text t :: l => t ++ write l
  | .ref n :: l => lit "${" ++ n ++ lit "}" ++ write l

/-- What it means: each reference is the value of that option. -/
def meaning (env : Bytes → Option Bytes) : List Piece → Bytes
  | [] => []
  | .text t :: l => t ++ meaning env l
  | .ref n :: l => (env n).getD [] ++ meaning env l

/-- A piece which can be written so: no dollar sign in a text, and a name of 1 to 99 bytes without a closing
brace. -/
def PieceOk : Piece → Prop
  | .text t => (36 : UInt8) ∉ t
  | .ref n => n ≠ [] ∧ (125 : UInt8) ∉ n ∧ n.length ≤ 99

/-- The references of a value name options which have a value, and this has no dollar sign in it. -/
def Known (env : Bytes → Option Bytes) : Piece → Prop
  | .text _ => True
  | .ref n => ∃ x, env n = some x ∧ (36 : UInt8) ∉ x

theorem findVar_none {v : Bytes} (h : (36 : UInt8) ∉ v) : findVar v = none := by
  induction v with
  | nil => rfl
  | cons b l ih =>
    simp only [List.mem_cons, not_or] at h
    unfold findVar
    rw [if_neg (fun g => h.1 g.1.symm), ih h.2]; rfl

theorem findVar_at {d : Bytes} (rest : Bytes) (h : (36 : UInt8) ∉ d) :
    findVar (d ++ 36 :: 123 :: rest) = some (d, rest) := by
  induction d with
  | nil => simp [findVar]
  | cons b l ih =>
    simp only [List.mem_cons, not_or] at h
    rw [List.cons_append]
    unfold findVar
    rw [if_neg (fun g => h.1 g.1.symm), ih h.2]; rfl

theorem splitAt_at {c : UInt8} {n : Bytes} (rest : Bytes) (h : c ∉ n) :
    splitAt c (n ++ c :: rest) = some (n, rest) := by
  induction n with
  | nil => simp [splitAt]
  | cons b l ih =>
    simp only [List.mem_cons, not_or] at h
    rw [List.cons_append]
    unfold splitAt
    rw [if_neg (fun g => h.1 g.symm), ih h.2]; rfl

theorem splitAt_none {c : UInt8} {n : Bytes} (h : c ∉ n) : splitAt c n = none := by
  induction n with
  | nil => rfl
  | cons b l ih =>
    simp only [List.mem_cons, not_or] at h
    unfold splitAt
    rw [if_neg (fun g => h.1 g.symm), ih h.2]; rfl

theorem splitAt_some {c : UInt8} {l a b : Bytes} (h : splitAt c l = some (a, b)) : l = a ++ c :: b ∧ c ∉ a := by
  induction l generalizing a with
  | nil => simp [splitAt] at h
  | cons x l ih =>
    unfold splitAt at h
    by_cases hx : x = c
    · rw [if_pos hx] at h; simp at h; obtain ⟨rfl, rfl⟩ := h; simp [hx]
    · rw [if_neg hx] at h
      cases hs : splitAt c l with
      | none => rw [hs] at h; simp at h
      | some p =>
        rw [hs] at h; simp at h; obtain ⟨rfl, rfl⟩ := h
        obtain ⟨h1, h2⟩ := ih (a := p.1) (by rw [hs])
        refine ⟨by rw [List.cons_append, ← h1], ?_⟩
        simp only [List.mem_cons, not_or]
        exact ⟨fun e => hx e.symm, h2⟩

theorem varName_ok {n post : Bytes} (h : n ≠ []) (hl : n.length ≤ 99) : varName n post = n := by
  unfold varName; rw [if_neg h, List.take_of_length_le hl]

/-- One step of the expansion. -/
theorem expand_ref (k : Nat) (s : Store) (d n post : Bytes) (hd : (36 : UInt8) ∉ d) (hn : n ≠ [])
    (hb : (125 : UInt8) ∉ n) (hl : n.length ≤ 99) :
    expand (k + 1) s (d ++ (lit "${" ++ n ++ lit "}" ++ post)) =
      match valueOf s n with
      | none => some (rename n s, d ++ (lit "${" ++ n ++ lit "}" ++ post))
      | some x => expand k (rename n s) (d ++ x ++ post) := by
  have e : d ++ (lit "${" ++ n ++ lit "}" ++ post) = d ++ 36 :: 123 :: (n ++ 125 :: post) := by
    show d ++ ((([36, 123] : Bytes) ++ n ++ [125]) ++ post) = _
    simp
  rw [e, expand, findVar_at _ hd]
  dsimp only
  rw [splitAt_at _ hb]
  dsimp only
  rw [varName_ok hn hl]
  unfold getOption valueOf
  dsimp only
  cases (lookup s n).bind (·.value) <;> rfl

/-- The references among the pieces. -/
def refs : List Piece → Nat
  | [] => 0
  | .text _ :: l => refs l
  | .ref _ :: l => refs l + 1

theorem expand_pieces (ps : List Piece) : ∀ (k : Nat) (s : Store) (d : Bytes), refs ps < k → (36 : UInt8) ∉ d →
    (∀ p ∈ ps, PieceOk p) → (∀ p ∈ ps, Known (valueOf s) p) →
    ∃ s', expand k s (d ++ write ps) = some (s', d ++ meaning (valueOf s) ps) ∧
      (∀ m, (lookup s' m).map (fun e => (e.value, e.dflt)) = (lookup s m).map (fun e => (e.value, e.dflt))) := by
  induction ps with
  | nil =>
    intro k s d hk hd _ _
    obtain ⟨j, rfl⟩ : ∃ j, k = j + 1 := ⟨k - 1, by simp [refs] at hk; omega⟩
    refine ⟨s, ?_, fun _ => rfl⟩
    simp [write, meaning, expand, findVar_none hd]
  | cons p ps ih =>
    intro k s d hk hd hok hkn
    have hok' : ∀ q ∈ ps, PieceOk q := fun q hq => hok q (List.mem_cons_of_mem _ hq)
    have hkn' : ∀ q ∈ ps, Known (valueOf s) q := fun q hq => hkn q (List.mem_cons_of_mem _ hq)
    cases p with
    | text t =>
      have ht : (36 : UInt8) ∉ t := hok (.text t) List.mem_cons_self
      have := ih k s (d ++ t) hk (by simp [hd, ht]) hok' hkn'
      simpa [write, meaning] using this
    | ref n =>
      obtain ⟨h1, h2, h3⟩ := hok (.ref n) List.mem_cons_self
      obtain ⟨x, hx, hxd⟩ := hkn (.ref n) List.mem_cons_self
      obtain ⟨j, rfl⟩ : ∃ j, k = j + 1 := ⟨k - 1, by simp [refs] at hk; omega⟩
      have hval : valueOf (rename n s) = valueOf s := funext (valueOf_rename s n)
      obtain ⟨s', e, g⟩ := ih j (rename n s) (d ++ x) (by simp [refs] at hk; omega) (by simp [hd, hxd]) hok'
        (by rw [hval]; exact hkn')
      refine ⟨s', ?_, fun m => by rw [g m, lookup_rename]⟩
      show expand (j + 1) s (d ++ (lit "${" ++ n ++ lit "}" ++ write ps)) = _
      rw [expand_ref j s d n _ hd h1 h2 h3, hx]
      dsimp only
      rw [e, hval]
      simp [meaning, hx]

/-- After an option which has no value nothing is expanded. -/
theorem expand_stops (ps : List Piece) (n rest : Bytes) : ∀ (k : Nat) (s : Store) (d : Bytes), refs ps < k →
    (36 : UInt8) ∉ d → (∀ p ∈ ps, PieceOk p) → (∀ p ∈ ps, Known (valueOf s) p) → PieceOk (.ref n) →
    valueOf s n = none →
    ∃ s', expand k s (d ++ (write ps ++ (lit "${" ++ n ++ lit "}" ++ rest))) =
        some (s', d ++ (meaning (valueOf s) ps ++ (lit "${" ++ n ++ lit "}" ++ rest))) ∧
      (∀ m, (lookup s' m).map (fun e => (e.value, e.dflt)) = (lookup s m).map (fun e => (e.value, e.dflt))) := by
  induction ps with
  | nil =>
    intro k s d hk hd _ _ hp hu
    obtain ⟨j, rfl⟩ : ∃ j, k = j + 1 := ⟨k - 1, by simp [refs] at hk; omega⟩
    refine ⟨rename n s, ?_, lookup_rename s n⟩
    simp only [write, meaning, List.nil_append]
    rw [expand_ref j s d n _ hd hp.1 hp.2.1 hp.2.2, hu]
  | cons p ps ih =>
    intro k s d hk hd hok hkn hp hu
    have hok' : ∀ q ∈ ps, PieceOk q := fun q hq => hok q (List.mem_cons_of_mem _ hq)
    have hkn' : ∀ q ∈ ps, Known (valueOf s) q := fun q hq => hkn q (List.mem_cons_of_mem _ hq)
    cases p with
    | text t =>
      have ht : (36 : UInt8) ∉ t := hok (.text t) List.mem_cons_self
      have := ih k s (d ++ t) hk (by simp [hd, ht]) hok' hkn' hp hu
      simpa [write, meaning] using this
    | ref m =>
      obtain ⟨h1, h2, h3⟩ := hok (.ref m) List.mem_cons_self
      obtain ⟨x, hx, hxd⟩ := hkn (.ref m) List.mem_cons_self
      obtain ⟨j, rfl⟩ : ∃ j, k = j + 1 := ⟨k - 1, by simp [refs] at hk; omega⟩
      have hval : valueOf (rename m s) = valueOf s := funext (valueOf_rename s m)
      obtain ⟨s', e, g⟩ := ih j (rename m s) (d ++ x) (by simp [refs] at hk; omega) (by simp [hd, hxd]) hok'
        (by rw [hval]; exact hkn') hp (by rw [hval]; exact hu)
      refine ⟨s', ?_, fun q => by rw [g q, lookup_rename]⟩
      have hw : write (.ref m :: ps) ++ (lit "${" ++ n ++ lit "}" ++ rest) =
          lit "${" ++ m ++ lit "}" ++ (write ps ++ (lit "${" ++ n ++ lit "}" ++ rest)) := by simp [write]
      rw [hw, expand_ref j s d m _ hd h1 h2 h3, hx]
      dsimp only
      rw [e, hval]
      simp [meaning, hx]

/-- An option gets the meaning of the value which the user wrote; nothing else changes. -/
theorem setOption_spec (home : Bytes → Bytes) (s : Store) (n : Bytes) (ps : List Piece)
    (hok : ∀ p ∈ ps, PieceOk p) (hkn : ∀ p ∈ ps, Known (valueOf s) p)
    (hh : ¬ ∃ r, write ps = lit "~/" ++ r) (k : Nat) (hk : refs ps < k) :
    ∃ s', setOption home k s n (write ps) = some s' ∧
      ∀ m, valueOf s' m = if Same m n then some (meaning (valueOf s) ps) else valueOf s m := by
  have hhome : expandHome home (write ps) = write ps := by
    unfold expandHome
    rw [if_neg]
    intro g
    unfold startsWith at g
    rw [List.isPrefixOf_iff_prefix] at g
    obtain ⟨r, hr⟩ := g
    exact hh ⟨r, hr.symm⟩
  have hval : valueOf (findOrAdd s n) = valueOf s := funext (valueOf_findOrAdd s n)
  obtain ⟨s', e, g⟩ := expand_pieces ps k (findOrAdd s n) [] hk (by simp) hok (by rw [hval]; exact hkn)
  rw [List.nil_append, List.nil_append] at e
  refine ⟨_, by unfold setOption; rw [hhome, e], ?_⟩
  intro m
  dsimp only
  rw [valueOf_setValue _ _ _ _ (by
    have := congrArg Option.isSome (g n)
    rw [Option.isSome_map, Option.isSome_map] at this
    rw [this]; exact lookup_findOrAdd s n), hval]
  have h2 : valueOf s' m = valueOf s m := by rw [valueOf_eq, g m, ← valueOf_eq, hval]
  rw [h2]

/-- The same if a reference names an option without a value: what follows it is kept as it is written, even
references to options which have one. -/
theorem setOption_unknown (home : Bytes → Bytes) (s : Store) (n : Bytes) (ps : List Piece) (u rest : Bytes)
    (hok : ∀ p ∈ ps, PieceOk p) (hkn : ∀ p ∈ ps, Known (valueOf s) p) (hu : PieceOk (.ref u))
    (hn : valueOf s u = none)
    (hh : ¬ ∃ r, write ps ++ (lit "${" ++ u ++ lit "}" ++ rest) = lit "~/" ++ r) (k : Nat) (hk : refs ps < k) :
    ∃ s', setOption home k s n (write ps ++ (lit "${" ++ u ++ lit "}" ++ rest)) = some s' ∧
      ∀ m, valueOf s' m = if Same m n then
          some (meaning (valueOf s) ps ++ (lit "${" ++ u ++ lit "}" ++ rest)) else valueOf s m := by
  have hhome : expandHome home (write ps ++ (lit "${" ++ u ++ lit "}" ++ rest)) =
      write ps ++ (lit "${" ++ u ++ lit "}" ++ rest) := by
    unfold expandHome
    rw [if_neg]
    intro g
    unfold startsWith at g
    rw [List.isPrefixOf_iff_prefix] at g
    obtain ⟨r, hr⟩ := g
    exact hh ⟨r, hr.symm⟩
  have hval : valueOf (findOrAdd s n) = valueOf s := funext (valueOf_findOrAdd s n)
  obtain ⟨s', e, g⟩ := expand_stops ps u rest k (findOrAdd s n) [] hk (by simp) hok (by rw [hval]; exact hkn) hu
    (by rw [hval]; exact hn)
  rw [List.nil_append, List.nil_append] at e
  refine ⟨_, by unfold setOption; rw [hhome, e], ?_⟩
  intro m
  dsimp only
  rw [valueOf_setValue _ _ _ _ (by
    have := congrArg Option.isSome (g n)
    rw [Option.isSome_map, Option.isSome_map] at this
    rw [this]; exact lookup_findOrAdd s n), hval]
  have h2 : valueOf s' m = valueOf s m := by rw [valueOf_eq, g m, ← valueOf_eq, hval]
  rw [h2]

/-- A value which begins with the home directory is set with that directory. -/
theorem setOption_home (home : Bytes → Bytes) (s : Store) (n r : Bytes) (k : Nat)
    (hh : ¬ ∃ q, home (lit "~/" ++ r) = lit "~/" ++ q) :
    setOption home k s n (lit "~/" ++ r) = setOption home k s n (home (lit "~/" ++ r)) := by
  unfold setOption
  have h1 : expandHome home (lit "~/" ++ r) = home (lit "~/" ++ r) := by
    unfold expandHome
    rw [if_pos]
    unfold startsWith
    rw [List.isPrefixOf_iff_prefix]
    exact List.prefix_append _ _
  have h2 : expandHome home (home (lit "~/" ++ r)) = home (lit "~/" ++ r) := by
    unfold expandHome
    rw [if_neg]
    intro g
    unfold startsWith at g
    rw [List.isPrefixOf_iff_prefix] at g
    obtain ⟨q, hq⟩ := g
    exact hh ⟨q, hq.symm⟩
  rw [h1, h2]

/-- A value with a dollar sign but without a reference is kept. -/
theorem findVar_iff (v : Bytes) : findVar v = none ↔ ¬ ∃ a b, v = a ++ lit "${" ++ b := by
  have hl : lit "${" = [36, 123] := rfl
  rw [hl]
  induction v with
  | nil => simp [findVar]
  | cons c l ih =>
    unfold findVar
    by_cases h : c = 36 ∧ l.head? = some 123
    · rw [if_pos h]
      constructor
      · intro g; cases g
      · intro g
        exfalso; apply g
        cases l with
        | nil => simp at h
        | cons x l =>
          simp at h
          exact ⟨[], l, by simp [h.1, h.2]⟩
    · rw [if_neg h, Option.map_eq_none_iff]
      refine Iff.trans ih ?_
      constructor
      · rintro g ⟨a, b, e⟩
        cases a with
        | nil => simp at e; exact h ⟨e.1, by rw [e.2]; rfl⟩
        | cons x a => simp at e; exact g ⟨a, b, by simp [e.2]⟩
      · rintro g ⟨a, b, e⟩
        exact g ⟨c :: a, b, by simp [e]⟩

/-- A value without a reference is kept as it is, dollar signs too. -/
theorem setOption_plain (home : Bytes → Bytes) (s : Store) (n v : Bytes)
    (hv : ¬ ∃ a b, v = a ++ lit "${" ++ b) (hh : ¬ ∃ r, v = lit "~/" ++ r) (k : Nat) (hk : 0 < k) :
    ∃ s', setOption home k s n v = some s' ∧
      ∀ m, valueOf s' m = if Same m n then some v else valueOf s m := by
  have hhome : expandHome home v = v := by
    unfold expandHome
    rw [if_neg]
    intro g
    unfold startsWith at g
    rw [List.isPrefixOf_iff_prefix] at g
    obtain ⟨r, hr⟩ := g
    exact hh ⟨r, hr.symm⟩
  obtain ⟨j, rfl⟩ : ∃ j, k = j + 1 := ⟨k - 1, by omega⟩
  refine ⟨setValue n v (findOrAdd s n), ?_, ?_⟩
  · unfold setOption
    rw [hhome, expand, (findVar_iff v).2 hv]
  · intro m
    rw [valueOf_setValue _ _ _ _ (lookup_findOrAdd s n), valueOf_findOrAdd]

end Verif.OptStore
