import Verif.FeedExpr
/-
C35: expressions of feed filters evaluate to their boolean meaning.
-/
namespace Verif.FeedExpr
open CStr

/-! ### Specification -/

/-- A filter expression: conditions (given by their text), negated conditions, conjunction,
disjunction and redundant brackets. -/
inductive Expr where
  | cond (body : Bytes)
  | neg (body : Bytes)
  | and (a b : Expr)
  | or (a b : Expr)
  | group (a : Expr)
deriving Repr

/-- The boolean meaning. -/
def Expr.value (val : Bytes → Bool) : Expr → Bool
  | .cond b => val b
  | .neg b => !val b
  | .and a b => a.value val && b.value val
  | .or a b => a.value val || b.value val
  | .group a => a.value val

mutual
/-- How the expression is written: one token after the other. Conjunctions and disjunctions are never
mixed in one pair of brackets: a disjunction in a conjunction, or the other way round, is bracketed. -/
def Expr.write : Expr → List Bytes
  | .cond b => [b]
  | .neg b => [45 :: b]
  | .and a b => a.writeInAnd ++ b.writeInAnd
  | .or a b => a.writeInOr ++ [lit "|"] ++ b.writeInOr
  | .group a => [lit "("] ++ a.write ++ [lit ")"]

def Expr.writeInAnd : Expr → List Bytes
  | .cond b => [b]
  | .neg b => [45 :: b]
  | .and a b => a.writeInAnd ++ b.writeInAnd
  | .or a b => [lit "("] ++ (a.writeInOr ++ [lit "|"] ++ b.writeInOr) ++ [lit ")"]
  | .group a => [lit "("] ++ a.write ++ [lit ")"]

def Expr.writeInOr : Expr → List Bytes
  | .cond b => [b]
  | .neg b => [45 :: b]
  | .and a b => [lit "("] ++ (a.writeInAnd ++ b.writeInAnd) ++ [lit ")"]
  | .or a b => a.writeInOr ++ [lit "|"] ++ b.writeInOr
  | .group a => [lit "("] ++ a.write ++ [lit ")"]
end

/-- The conditions are not mistaken for something else: they are not empty, begin neither with `-` nor
with `+`, and are not a bracket or `|` themselves. -/
def Expr.Ok : Expr → Prop
  | .cond b => b.head? ≠ some 45 ∧ b.head? ≠ some 43 ∧ b ≠ [40] ∧ b ≠ [41] ∧ b ≠ [124]
  | .neg b => b ≠ [40] ∧ b ≠ [41] ∧ b ≠ [124]
  | .and a b => a.Ok ∧ b.Ok
  | .or a b => a.Ok ∧ b.Ok
  | .group a => a.Ok

/-! ### A machine which reads the string from left to right -/

/-- What was read of the current pair of brackets: nothing, one operand, several operands of a
conjunction, operands of a disjunction, operands of a disjunction and a bar. -/
inductive Ctx where
  | empty | one (b : Bool) | conj (b : Bool) | disj (b : Bool) | wait (b : Bool)
deriving DecidableEq, Repr

def Ctx.feed (v : Bool) : Ctx → Option Ctx
  | .empty => some (.one v)
  | .one b => some (.conj (b && v))
  | .conj b => some (.conj (b && v))
  | .wait b => some (.disj (b || v))
  | .disj _ => none

def Ctx.bar : Ctx → Option Ctx
  | .one b => some (.wait b)
  | .disj b => some (.wait b)
  | _ => none

def Ctx.val : Ctx → Option Bool
  | .one b => some b
  | .conj b => some b
  | .disj b => some b
  | _ => none

def canOpen : Ctx → Bool
  | .disj _ => false
  | _ => true

/-- The current context and those of the enclosing brackets. -/
abbrev M := Ctx × List Ctx

def closeM (m : M) : Option M :=
  match m.1.val, m.2 with
  | some v, d :: l => (d.feed v).map (fun c => (c, l))
  | _, _ => none

def stepM (m : M) : Sym → Option M
  | .t => (m.1.feed true).map (fun c => (c, m.2))
  | .f => (m.1.feed false).map (fun c => (c, m.2))
  | .bar => m.1.bar.map (fun c => (c, m.2))
  | .lp => if canOpen m.1 then some (.empty, m.1 :: m.2) else none
  | .rp => closeM m

def runM (m : M) : List Sym → Option M
  | [] => some m
  | c :: w => match stepM m c with
    | none => none
    | some m' => runM m' w

theorem runM_append (m : M) (u w : List Sym) :
    runM m (u ++ w) = (runM m u).bind (fun m' => runM m' w) := by
  induction u generalizing m with
  | nil => rfl
  | cons c u ih =>
    simp only [List.cons_append, runM]
    cases stepM m c with
    | none => rfl
    | some m' => exact ih m'

/-- A context which is able to go on at least as well. -/
def Le : Ctx → Ctx → Prop
  | .conj b, .one b' => b = b'
  | .disj b, .one b' => b = b'
  | c, c' => c = c'

theorem Le.refl (c : Ctx) : Le c c := by cases c <;> rfl

theorem Le.trans {a b c : Ctx} (h : Le a b) (h' : Le b c) : Le a c := by
  cases a <;> cases b <;> cases c <;> simp_all [Le]

theorem le_feed {a b : Ctx} (h : Le a b) (v : Bool) {a' : Ctx} (ha : a.feed v = some a') :
    ∃ b', b.feed v = some b' ∧ Le a' b' := by
  cases a <;> cases b <;> simp_all [Le, Ctx.feed] <;> subst ha <;> simp [Le]

theorem le_bar {a b : Ctx} (h : Le a b) {a' : Ctx} (ha : a.bar = some a') :
    ∃ b', b.bar = some b' ∧ Le a' b' := by
  cases a <;> cases b <;> simp_all [Le, Ctx.bar] <;> subst ha <;> simp

theorem le_val {a b : Ctx} (h : Le a b) {v : Bool} (ha : a.val = some v) : b.val = some v := by
  cases a <;> cases b <;> simp_all [Le, Ctx.val]

theorem le_open {a b : Ctx} (h : Le a b) (ha : canOpen a = true) : canOpen b = true := by
  cases a <;> cases b <;> simp_all [Le, canOpen]

inductive LeL : List Ctx → List Ctx → Prop
  | nil : LeL [] []
  | cons {a b l l'} : Le a b → LeL l l' → LeL (a :: l) (b :: l')

theorem LeL.refl : ∀ l, LeL l l
  | [] => .nil
  | c :: l => .cons (Le.refl c) (LeL.refl l)

def LeM (m m' : M) : Prop := Le m.1 m'.1 ∧ LeL m.2 m'.2

theorem LeM.refl (m : M) : LeM m m := ⟨Le.refl _, LeL.refl _⟩

theorem le_step {m n : M} (h : LeM m n) (c : Sym) {m' : M} (hm : stepM m c = some m') :
    ∃ n', stepM n c = some n' ∧ LeM m' n' := by
  obtain ⟨a, l⟩ := m
  obtain ⟨b, l'⟩ := n
  obtain ⟨h1, h2⟩ := h
  dsimp only at h1 h2
  cases c with
  | t =>
    simp only [stepM, Option.map_eq_some_iff] at hm ⊢
    obtain ⟨a', ha, rfl⟩ := hm
    obtain ⟨b', hb, hle⟩ := le_feed h1 true ha
    exact ⟨_, ⟨b', hb, rfl⟩, hle, h2⟩
  | f =>
    simp only [stepM, Option.map_eq_some_iff] at hm ⊢
    obtain ⟨a', ha, rfl⟩ := hm
    obtain ⟨b', hb, hle⟩ := le_feed h1 false ha
    exact ⟨_, ⟨b', hb, rfl⟩, hle, h2⟩
  | bar =>
    simp only [stepM, Option.map_eq_some_iff] at hm ⊢
    obtain ⟨a', ha, rfl⟩ := hm
    obtain ⟨b', hb, hle⟩ := le_bar h1 ha
    exact ⟨_, ⟨b', hb, rfl⟩, hle, h2⟩
  | lp =>
    simp only [stepM] at hm ⊢
    by_cases ho : canOpen a = true
    · rw [if_pos ho] at hm
      simp only [Option.some.injEq] at hm
      subst hm
      rw [if_pos (le_open h1 ho)]
      exact ⟨_, rfl, Le.refl _, .cons h1 h2⟩
    · rw [if_neg ho] at hm; cases hm
  | rp =>
    simp only [stepM, closeM] at hm ⊢
    cases hv : a.val with
    | none => rw [hv] at hm; cases hm
    | some v =>
      rw [hv] at hm
      rw [le_val h1 hv]
      cases h2 with
      | nil => cases hm
      | cons hd hl =>
        simp only [Option.map_eq_some_iff] at hm ⊢
        obtain ⟨a', ha, rfl⟩ := hm
        obtain ⟨b', hb, hle⟩ := le_feed hd v ha
        exact ⟨_, ⟨b', hb, rfl⟩, hle, hl⟩

theorem le_run (w : List Sym) : ∀ {m n m' : M}, LeM m n → runM m w = some m' →
    ∃ n', runM n w = some n' ∧ LeM m' n' := by
  induction w with
  | nil => intro m n m' h hm; simp only [runM, Option.some.injEq] at hm; subst hm; exact ⟨n, rfl, h⟩
  | cons c w ih =>
    intro m n m' h hm
    simp only [runM] at hm ⊢
    cases hs : stepM m c with
    | none => rw [hs] at hm; cases hm
    | some m1 =>
      rw [hs] at hm
      obtain ⟨n1, h1, h2⟩ := le_step h c hs
      rw [h1]
      exact ih h2 hm

/-- Every reduction keeps the meaning, wherever it is applied. -/
theorem rule_ok (r : List Sym × List Sym) (hr : r ∈ rules) (m m1 : M) (h : runM m r.1 = some m1) :
    ∃ m2, runM m r.2 = some m2 ∧ LeM m1 m2 := by
  obtain ⟨c, l⟩ := m
  simp only [rules, List.mem_cons, List.not_mem_nil, or_false] at hr
  rcases hr with rfl | rfl | rfl | rfl | rfl | rfl | rfl | rfl | rfl | rfl | rfl | rfl | rfl <;>
    cases c <;> simp [runM, stepM, closeM, Ctx.feed, Ctx.bar, Ctx.val, canOpen] at h ⊢ <;>
    first
    | (subst h; simp [LeM, Le, LeL.refl])
    | skip

/-- The string is an expression with the value `b`. -/
def Acc (b : Bool) (w : List Sym) : Prop :=
  ∃ m, runM (.empty, []) w = some m ∧ m.2 = [] ∧ m.1.val = some b

theorem acc_rule {b : Bool} {r : List Sym × List Sym} (hr : r ∈ rules) {x y : List Sym}
    (h : Acc b (x ++ r.1 ++ y)) : Acc b (x ++ r.2 ++ y) := by
  obtain ⟨m, h1, h2, h3⟩ := h
  rw [List.append_assoc, runM_append] at h1
  cases hx : runM (.empty, []) x with
  | none => rw [hx] at h1; cases h1
  | some m1 =>
    rw [hx] at h1
    simp only [Option.bind_some] at h1
    rw [runM_append] at h1
    cases hu : runM m1 r.1 with
    | none => rw [hu] at h1; cases h1
    | some m2 =>
      rw [hu] at h1
      simp only [Option.bind_some] at h1
      obtain ⟨m3, h4, h5⟩ := rule_ok r hr m1 m2 hu
      obtain ⟨m4, h6, h7⟩ := le_run y h5 h1
      refine ⟨m4, ?_, ?_, ?_⟩
      · rw [List.append_assoc, runM_append, hx]
        simp only [Option.bind_some]
        rw [runM_append, h4]
        exact h6
      · have h8 := h7.2
        rw [h2] at h8
        cases hh : m4.2 with
        | nil => rfl
        | cons d l => rw [hh] at h8; cases h8
      · exact le_val h7.1 h3

theorem replaceFirst_some {src dst w w' : List Sym} (h : replaceFirst src dst w = some w') :
    ∃ x y, w = x ++ src ++ y ∧ w' = x ++ dst ++ y := by
  induction w generalizing w' with
  | nil =>
    unfold replaceFirst at h
    by_cases hs : src = []
    · rw [if_pos hs] at h
      simp only [Option.some.injEq] at h
      exact ⟨[], [], by rw [hs]; rfl, by rw [h]; simp⟩
    · rw [if_neg hs] at h; cases h
  | cons c w ih =>
    unfold replaceFirst at h
    by_cases hp : src.isPrefixOf (c :: w) = true
    · rw [if_pos hp] at h
      simp only [Option.some.injEq] at h
      obtain ⟨y, hy⟩ := List.isPrefixOf_iff_prefix.1 hp
      refine ⟨[], y, by rw [← hy]; simp, ?_⟩
      rw [← h, ← hy, List.drop_left]; simp
    · rw [if_neg hp] at h
      simp only [Option.map_eq_some_iff] at h
      obtain ⟨w1, h1, rfl⟩ := h
      obtain ⟨x, y, e1, e2⟩ := ih h1
      exact ⟨c :: x, y, by rw [e1]; rfl, by rw [e2]; rfl⟩

theorem replaceFirst_none {src dst w : List Sym} (h : replaceFirst src dst w = none) : ¬ src <:+: w := by
  induction w with
  | nil =>
    unfold replaceFirst at h
    by_cases hs : src = []
    · rw [if_pos hs] at h; cases h
    · exact fun hi => hs (List.infix_nil.1 hi)
  | cons c w ih =>
    unfold replaceFirst at h
    by_cases hp : src.isPrefixOf (c :: w) = true
    · rw [if_pos hp] at h; cases h
    · rw [if_neg hp] at h
      simp only [Option.map_eq_none_iff] at h
      intro hi
      rcases List.infix_cons_iff.1 hi with hi | hi
      · exact hp (List.isPrefixOf_iff_prefix.2 hi)
      · exact ih h hi

theorem rules_shorter : ∀ r ∈ rules, r.2.length < r.1.length := by decide

/-- Replacing all occurrences: the value stays, and either there was none or the string is shorter. -/
theorem reduceStr_spec {b : Bool} {r : List Sym × List Sym} (hr : r ∈ rules) :
    ∀ (n : Nat) (w : List Sym), w.length ≤ n → Acc b w →
      Acc b (reduceStr r.1 r.2 n w) ∧
      ((reduceStr r.1 r.2 n w = w ∧ ¬ r.1 <:+: w) ∨ (reduceStr r.1 r.2 n w).length < w.length) := by
  have hlen := rules_shorter r hr
  intro n
  induction n with
  | zero =>
    intro w hl hA
    have hw : w = [] := List.length_eq_zero_iff.1 (by omega)
    refine ⟨hA, Or.inl ⟨rfl, ?_⟩⟩
    rw [hw]
    intro hi
    rw [List.infix_nil.1 hi] at hlen
    simp only [List.length_nil] at hlen
    omega
  | succ n ih =>
    intro w hl hA
    unfold reduceStr
    cases hf : replaceFirst r.1 r.2 w with
    | none => exact ⟨hA, Or.inl ⟨rfl, replaceFirst_none hf⟩⟩
    | some w' =>
      dsimp only
      obtain ⟨x, y, e1, e2⟩ := replaceFirst_some hf
      have hA' : Acc b w' := by rw [e2]; rw [e1] at hA; exact acc_rule hr hA
      have hl' : w'.length < w.length := by
        rw [e1, e2]; simp only [List.length_append]; omega
      obtain ⟨h1, h2⟩ := ih w' (by omega) hA'
      refine ⟨h1, Or.inr ?_⟩
      rcases h2 with h2 | h2
      · rw [h2.1]; exact hl'
      · omega

/-- None of the reductions applies. -/
def Normal (w : List Sym) : Prop := ∀ r ∈ rules, ¬ r.1 <:+: w

theorem foldl_spec {b : Bool} : ∀ (l : List (List Sym × List Sym)), (∀ r ∈ l, r ∈ rules) →
    ∀ w, Acc b w →
      Acc b (l.foldl (fun w r => reduceStr r.1 r.2 w.length w) w) ∧
      ((l.foldl (fun w r => reduceStr r.1 r.2 w.length w) w = w ∧ ∀ r ∈ l, ¬ r.1 <:+: w) ∨
       (l.foldl (fun w r => reduceStr r.1 r.2 w.length w) w).length < w.length) := by
  intro l
  induction l with
  | nil => intro _ w hA; exact ⟨hA, Or.inl ⟨rfl, fun _ h => absurd h List.not_mem_nil⟩⟩
  | cons r l ih =>
    intro hl w hA
    simp only [List.foldl_cons]
    obtain ⟨h1, h2⟩ := reduceStr_spec (hl r (List.mem_cons_self ..)) w.length w (Nat.le_refl _) hA
    obtain ⟨h3, h4⟩ := ih (fun x hx => hl x (List.mem_cons_of_mem _ hx)) _ h1
    refine ⟨h3, ?_⟩
    rcases h2 with ⟨e, hn⟩ | h2
    · rw [e] at h4 ⊢
      rcases h4 with ⟨e', hn'⟩ | h4
      · refine Or.inl ⟨e', ?_⟩
        intro x hx
        rcases List.mem_cons.1 hx with rfl | hx
        · exact hn
        · exact hn' x hx
      · exact Or.inr h4
    · refine Or.inr ?_
      rcases h4 with ⟨e', _⟩ | h4
      · rw [e']; exact h2
      · omega

theorem round_spec {b : Bool} (w : List Sym) (hA : Acc b w) :
    Acc b (round w) ∧ ((round w = w ∧ Normal w) ∨ (round w).length < w.length) :=
  foldl_spec rules (fun _ h => h) w hA

theorem reduce_spec {b : Bool} : ∀ (n old : Nat) (w : List Sym), Acc b w →
    (w.length = old → Normal w ∧ 1 ≤ n) → (w.length ≠ old → w.length + 2 ≤ n) →
    Acc b (reduce n old w) ∧ Normal (reduce n old w) := by
  intro n
  induction n with
  | zero =>
    intro old w _ h1 h2
    by_cases h : w.length = old
    · have := (h1 h).2; omega
    · have := h2 h; omega
  | succ n ih =>
    intro old w hA h1 h2
    unfold reduce
    by_cases h : w.length = old
    · rw [if_pos h]; exact ⟨hA, (h1 h).1⟩
    · rw [if_neg h]
      have h3 := h2 h
      obtain ⟨h4, h5⟩ := round_spec w hA
      refine ih w.length (round w) h4 ?_ ?_
      · intro he
        rcases h5 with ⟨e, hn⟩ | h5
        · rw [e]; exact ⟨hn, by omega⟩
        · omega
      · intro hne
        rcases h5 with ⟨e, hn⟩ | h5
        · rw [e] at hne; exact absurd rfl hne
        · omega

theorem Normal.tail {c : Sym} {w : List Sym} (h : Normal (c :: w)) : Normal w :=
  fun r hr hi => h r hr (hi.trans (List.suffix_cons c w).isInfix)

/-- The symbol of a value. -/
def sym (b : Bool) : Sym := if b then .t else .f

theorem normal_two {x y : Bool} {w : List Sym} (h : Normal (sym x :: sym y :: w)) : False := by
  have hi : ∀ u : List Sym, u <:+: u ++ w := fun u => (List.prefix_append u w).isInfix
  cases x <;> cases y
  · exact h ([.f, .f], [.f]) (by decide) (hi [.f, .f])
  · exact h ([.f, .t], [.f]) (by decide) (hi [.f, .t])
  · exact h ([.t, .f], [.f]) (by decide) (hi [.t, .f])
  · exact h ([.t, .t], [.t]) (by decide) (hi [.t, .t])

theorem normal_bar {x y : Bool} {w : List Sym} (h : Normal (sym x :: .bar :: sym y :: w)) : False := by
  have hi : ∀ u : List Sym, u <:+: u ++ w := fun u => (List.prefix_append u w).isInfix
  cases x <;> cases y
  · exact h ([.f, .bar, .f], [.f]) (by decide) (hi [.f, .bar, .f])
  · exact h ([.f, .bar, .t], [.t]) (by decide) (hi [.f, .bar, .t])
  · exact h ([.t, .bar, .f], [.t]) (by decide) (hi [.t, .bar, .f])
  · exact h ([.t, .bar, .t], [.t]) (by decide) (hi [.t, .bar, .t])

theorem normal_paren {x : Bool} {w : List Sym} (h : Normal (.lp :: sym x :: .rp :: w)) : False := by
  have hi : ∀ u : List Sym, u <:+: u ++ w := fun u => (List.prefix_append u w).isInfix
  cases x
  · exact h ([.lp, .f, .rp], [.f]) (by decide) (hi [.lp, .f, .rp])
  · exact h ([.lp, .t, .rp], [.t]) (by decide) (hi [.lp, .t, .rp])

/-- Behind an opening bracket a normal string never closes it. -/
theorem never_closed (w : List Sym) : ∀ (m m' : M), m.2 ≠ [] → runM m w = some m' →
    (m.1 = .empty → Normal (.lp :: w) → m'.2 ≠ []) ∧
    (∀ x b, m.1 = .one b → Normal (.lp :: sym x :: w) → m'.2 ≠ []) ∧
    (∀ x b, m.1 = .wait b → Normal (.lp :: sym x :: .bar :: w) → m'.2 ≠ []) := by
  induction w with
  | nil =>
    intro m m' hm h
    simp only [runM, Option.some.injEq] at h
    subst h
    exact ⟨fun _ _ => hm, fun _ _ _ _ => hm, fun _ _ _ _ => hm⟩
  | cons c w ih =>
    intro m m' hm h
    obtain ⟨a, l⟩ := m
    dsimp only at hm
    simp only [runM] at h
    cases hs : stepM (a, l) c with
    | none => rw [hs] at h; cases h
    | some m1 =>
      rw [hs] at h
      dsimp only at h
      refine ⟨?_, ?_, ?_⟩
      · intro ha hn
        dsimp only at ha
        subst ha
        cases c with
        | t =>
          simp only [stepM, Ctx.feed, Option.map_some, Option.some.injEq] at hs
          subst hs
          exact (ih _ m' hm h).2.1 true true rfl hn
        | f =>
          simp only [stepM, Ctx.feed, Option.map_some, Option.some.injEq] at hs
          subst hs
          exact (ih _ m' hm h).2.1 false false rfl hn
        | bar => simp [stepM, Ctx.bar] at hs
        | lp =>
          simp only [stepM, canOpen, if_true, Option.some.injEq] at hs
          subst hs
          exact (ih _ m' (List.cons_ne_nil _ _) h).1 rfl hn.tail
        | rp => simp [stepM, closeM, Ctx.val] at hs
      · intro x b ha hn
        dsimp only at ha
        subst ha
        cases c with
        | t => exact (normal_two (y := true) hn.tail).elim
        | f => exact (normal_two (y := false) hn.tail).elim
        | bar =>
          simp only [stepM, Ctx.bar, Option.map_some, Option.some.injEq] at hs
          subst hs
          exact (ih _ m' hm h).2.2 x b rfl hn
        | lp =>
          simp only [stepM, canOpen, if_true, Option.some.injEq] at hs
          subst hs
          exact (ih _ m' (List.cons_ne_nil _ _) h).1 rfl hn.tail.tail
        | rp => exact (normal_paren hn).elim
      · intro x b ha hn
        dsimp only at ha
        subst ha
        cases c with
        | t => exact (normal_bar (y := true) hn.tail).elim
        | f => exact (normal_bar (y := false) hn.tail).elim
        | bar => simp [stepM, Ctx.bar] at hs
        | lp =>
          simp only [stepM, canOpen, if_true, Option.some.injEq] at hs
          subst hs
          exact (ih _ m' (List.cons_ne_nil _ _) h).1 rfl hn.tail.tail.tail
        | rp => simp [stepM, closeM, Ctx.val] at hs

theorem after_open {w : List Sym} {c : Ctx} {m : M} (h : runM (.empty, [c]) w = some m)
    (hn : Normal (.lp :: w)) : m.2 ≠ [] :=
  (never_closed w (.empty, [c]) m (List.cons_ne_nil _ _) h).1 rfl hn

/-- An expression to which no reduction applies is a single value. -/
theorem normal_acc {b : Bool} {w : List Sym} (hA : Acc b w) (hn : Normal w) : w = [sym b] := by
  obtain ⟨m, h1, h2, h3⟩ := hA
  cases w with
  | nil =>
    simp only [runM, Option.some.injEq] at h1
    subst h1
    simp [Ctx.val] at h3
  | cons c w =>
    have first : ∀ x : Bool, c = sym x → c :: w = [sym b] := by
      intro x hx
      have hs : runM (.one x, []) w = some m := by
        rw [hx] at h1
        cases x <;> simpa [runM, stepM, sym, Ctx.feed] using h1
      rw [hx] at hn ⊢
      cases w with
      | nil =>
        simp only [runM, Option.some.injEq] at hs
        subst hs
        simp only [Ctx.val, Option.some.injEq] at h3
        rw [h3]
      | cons d w =>
        cases d with
        | t => exact (normal_two (y := true) hn).elim
        | f => exact (normal_two (y := false) hn).elim
        | rp => simp [runM, stepM, closeM, Ctx.val] at hs
        | lp =>
          simp only [runM, stepM, canOpen, if_true] at hs
          exact absurd h2 (after_open hs hn.tail)
        | bar =>
          simp only [runM, stepM, Ctx.bar, Option.map_some] at hs
          cases w with
          | nil =>
            simp only [runM, Option.some.injEq] at hs
            subst hs
            simp [Ctx.val] at h3
          | cons e w =>
            cases e with
            | t => exact (normal_bar (y := true) hn).elim
            | f => exact (normal_bar (y := false) hn).elim
            | rp => simp [runM, stepM, closeM, Ctx.val] at hs
            | bar => simp [runM, stepM, Ctx.bar] at hs
            | lp =>
              simp only [runM, stepM, canOpen, if_true] at hs
              exact absurd h2 (after_open hs hn.tail.tail)
    cases c with
    | t => exact first true rfl
    | f => exact first false rfl
    | bar => simp [runM, stepM, Ctx.bar] at h1
    | rp => simp [runM, stepM, closeM, Ctx.val] at h1
    | lp =>
      simp only [runM, stepM, canOpen, if_true] at h1
      exact absurd h2 (after_open h1 hn)

theorem matchSyms_acc {b : Bool} {w : List Sym} (hA : Acc b w) : matchSyms w = b := by
  have hne : w ≠ [] := by
    rintro rfl
    obtain ⟨m, h1, _, h3⟩ := hA
    simp only [runM, Option.some.injEq] at h1
    subst h1
    simp [Ctx.val] at h3
  have hpos := List.length_pos_iff.2 hne
  obtain ⟨h1, h2⟩ := reduce_spec (w.length + 2) 0 w hA (fun h => by omega) (fun _ => Nat.le_refl _)
  unfold matchSyms
  rw [normal_acc h1 h2]
  cases b <;> rfl

/-! ### C35 -/

theorem sym_cond (val : Bytes → Bool) (body : Bytes)
    (h : body.head? ≠ some 45 ∧ body.head? ≠ some 43 ∧ body ≠ [40] ∧ body ≠ [41] ∧ body ≠ [124]) :
    symOf val (compileTerm body) = sym (val body) := by
  obtain ⟨h1, h2, h3, h4, h5⟩ := h
  have : compileTerm body = .cond true body := by
    unfold compileTerm
    have hr : (if body.head? = some 45 ∨ body.head? = some 43 then body.tail else body) = body :=
      if_neg (by intro hc; rcases hc with hc | hc; exact h1 hc; exact h2 hc)
    dsimp only
    rw [hr, if_neg h3, if_neg h4, if_neg h5]
    have : (body.head? != some 45) = true := by simpa using h1
    rw [this]
  rw [this]
  show (if (true == val body) = true then Sym.t else Sym.f) = sym (val body)
  cases val body <;> rfl

theorem sym_neg (val : Bytes → Bool) (body : Bytes) (h : body ≠ [40] ∧ body ≠ [41] ∧ body ≠ [124]) :
    symOf val (compileTerm (45 :: body)) = sym (!val body) := by
  obtain ⟨h3, h4, h5⟩ := h
  have : compileTerm (45 :: body) = .cond false body := by
    unfold compileTerm
    simp only [List.head?_cons, true_or, if_true, List.tail_cons]
    rw [if_neg h3, if_neg h4, if_neg h5]
    rfl
  rw [this]
  show (if (false == val body) = true then Sym.t else Sym.f) = sym (!val body)
  cases val body <;> rfl

/-- The string of an expression. -/
def str (val : Bytes → Bool) (tokens : List Bytes) : List Sym :=
  tokens.map (fun t => symOf val (compileTerm t))

theorem str_append (val : Bytes → Bool) (a b : List Bytes) : str val (a ++ b) = str val a ++ str val b :=
  List.map_append

theorem run_sym (c c' : Ctx) (l : List Ctx) (v : Bool) (h : c.feed v = some c') :
    runM (c, l) [sym v] = some (c', l) := by
  cases v <;> simp [runM, stepM, sym, h]

theorem run_paren {val : Bytes → Bool} {w : List Sym} {v : Bool} {cw : Ctx}
    (hw : ∀ l, runM (.empty, l) w = some (cw, l)) (hv : cw.val = some v)
    {c c' : Ctx} {l : List Ctx} (h : c.feed v = some c') :
    runM (c, l) (str val [lit "("] ++ w ++ str val [lit ")"]) = some (c', l) := by
  have ho : canOpen c = true := by cases c <;> simp_all [Ctx.feed, canOpen]
  have e1 : str val [lit "("] = [.lp] := rfl
  have e2 : str val [lit ")"] = [.rp] := rfl
  rw [e1, e2, List.append_assoc, List.singleton_append]
  simp only [runM, stepM, ho, if_true]
  rw [runM_append, hw (c :: l)]
  simp [runM, stepM, closeM, hv, h]

/-- Reading an expression, as a whole and as an operand. -/
theorem read_expr (val : Bytes → Bool) (e : Expr) (hok : e.Ok) :
    (∃ cw, cw.val = some (e.value val) ∧ ∀ l, runM (.empty, l) (str val e.write) = some (cw, l)) ∧
    (∃ cw, (cw = .one (e.value val) ∨ cw = .conj (e.value val)) ∧
      ∀ l, runM (.empty, l) (str val e.writeInAnd) = some (cw, l)) ∧
    (∀ b l, runM (.one b, l) (str val e.writeInAnd) = some (.conj (b && e.value val), l)) ∧
    (∀ b l, runM (.conj b, l) (str val e.writeInAnd) = some (.conj (b && e.value val), l)) ∧
    (∃ cw, (cw = .one (e.value val) ∨ cw = .disj (e.value val)) ∧
      ∀ l, runM (.empty, l) (str val e.writeInOr) = some (cw, l)) ∧
    (∀ b l, runM (.wait b, l) (str val e.writeInOr) = some (.disj (b || e.value val), l)) := by
  induction e with
  | cond body =>
    have hs := sym_cond val body hok
    have hw : str val [body] = [sym (val body)] := by unfold str; simp only [List.map_cons, List.map_nil, hs]
    simp only [Expr.write, Expr.writeInAnd, Expr.writeInOr, Expr.value, hw]
    exact ⟨⟨.one (val body), rfl, fun l => run_sym _ _ l _ rfl⟩,
      ⟨_, Or.inl rfl, fun l => run_sym _ _ l _ rfl⟩, fun b l => run_sym _ _ l _ rfl,
      fun b l => run_sym _ _ l _ rfl, ⟨_, Or.inl rfl, fun l => run_sym _ _ l _ rfl⟩,
      fun b l => run_sym _ _ l _ rfl⟩
  | neg body =>
    have hs := sym_neg val body hok
    have hw : str val [45 :: body] = [sym (!val body)] := by
      unfold str; simp only [List.map_cons, List.map_nil, hs]
    simp only [Expr.write, Expr.writeInAnd, Expr.writeInOr, Expr.value, hw]
    exact ⟨⟨.one (!val body), rfl, fun l => run_sym _ _ l _ rfl⟩,
      ⟨_, Or.inl rfl, fun l => run_sym _ _ l _ rfl⟩, fun b l => run_sym _ _ l _ rfl,
      fun b l => run_sym _ _ l _ rfl, ⟨_, Or.inl rfl, fun l => run_sym _ _ l _ rfl⟩,
      fun b l => run_sym _ _ l _ rfl⟩
  | group a ih =>
    obtain ⟨cw, hv, hr⟩ := (ih hok).1
    have hp := fun (c c' : Ctx) (l : List Ctx) (h : c.feed (a.value val) = some c') =>
      run_paren (val := val) hr hv (l := l) h
    simp only [Expr.write, Expr.writeInAnd, Expr.writeInOr, Expr.value, str_append]
    exact ⟨⟨.one (a.value val), rfl, fun l => hp _ _ l rfl⟩,
      ⟨_, Or.inl rfl, fun l => hp _ _ l rfl⟩, fun b l => hp _ _ l rfl, fun b l => hp _ _ l rfl,
      ⟨_, Or.inl rfl, fun l => hp _ _ l rfl⟩, fun b l => hp _ _ l rfl⟩
  | and a b iha ihb =>
    obtain ⟨_, ⟨ca, hca, ha⟩, ha1, ha2, _⟩ := iha hok.1
    obtain ⟨_, _, hb1, hb2, _⟩ := ihb hok.2
    have key : ∀ l, runM (.empty, l) (str val (a.writeInAnd ++ b.writeInAnd)) =
        some (.conj (a.value val && b.value val), l) := by
      intro l
      rw [str_append, runM_append, ha l]
      rcases hca with rfl | rfl
      · exact hb1 _ l
      · exact hb2 _ l
    have key' : ∀ l, runM (.empty, l) (str val a.writeInAnd ++ str val b.writeInAnd) =
        some (.conj (a.value val && b.value val), l) := by
      intro l; rw [← str_append]; exact key l
    have hp := fun (c c' : Ctx) (l : List Ctx) (h : c.feed (a.value val && b.value val) = some c') =>
      run_paren (val := val) key' rfl (l := l) h
    simp only [Expr.write, Expr.writeInAnd, Expr.writeInOr, Expr.value]
    refine ⟨⟨_, rfl, key⟩, ⟨_, Or.inr rfl, key⟩, ?_, ?_, ⟨.one _, Or.inl rfl, ?_⟩, ?_⟩
    · intro x l
      rw [str_append, runM_append, ha1 x l]
      simp only [Option.bind_some]
      rw [hb2, Bool.and_assoc]
    · intro x l
      rw [str_append, runM_append, ha2 x l]
      simp only [Option.bind_some]
      rw [hb2, Bool.and_assoc]
    · intro l
      simp only [str_append]
      exact hp _ _ l rfl
    · intro x l
      simp only [str_append]
      exact hp _ _ l rfl
  | or a b iha ihb =>
    obtain ⟨_, _, _, _, ⟨ca, hca, ha⟩, ha1⟩ := iha hok.1
    obtain ⟨_, _, _, _, _, hb1⟩ := ihb hok.2
    have hbar : str val [lit "|"] = [.bar] := rfl
    have key : ∀ l, runM (.empty, l) (str val (a.writeInOr ++ [lit "|"] ++ b.writeInOr)) =
        some (.disj (a.value val || b.value val), l) := by
      intro l
      rw [str_append, str_append, hbar, List.append_assoc, runM_append, ha l]
      simp only [Option.bind_some, List.singleton_append, runM]
      rcases hca with rfl | rfl
      · simp only [stepM, Ctx.bar, Option.map_some]; exact hb1 _ l
      · simp only [stepM, Ctx.bar, Option.map_some]; exact hb1 _ l
    have key' : ∀ l, runM (.empty, l) (str val a.writeInOr ++ str val [lit "|"] ++ str val b.writeInOr) =
        some (.disj (a.value val || b.value val), l) := by
      intro l; rw [← str_append, ← str_append]; exact key l
    have hp := fun (c c' : Ctx) (l : List Ctx) (h : c.feed (a.value val || b.value val) = some c') =>
      run_paren (val := val) key' rfl (l := l) h
    simp only [Expr.write, Expr.writeInAnd, Expr.writeInOr, Expr.value]
    refine ⟨⟨_, rfl, key⟩, ⟨.one _, Or.inl rfl, ?_⟩, ?_, ?_, ⟨_, Or.inr rfl, key⟩, ?_⟩
    · intro l; simp only [str_append]; exact hp _ _ l rfl
    · intro x l; simp only [str_append]; exact hp _ _ l rfl
    · intro x l; simp only [str_append]; exact hp _ _ l rfl
    · intro x l
      rw [str_append, str_append, hbar, List.append_assoc, runM_append, ha1 x l]
      simp only [Option.bind_some, List.singleton_append, runM, stepM, Ctx.bar, Option.map_some]
      rw [hb1, Bool.or_assoc]

/-- **C35**, for expressions which do not mix conjunction and disjunction in one pair of brackets and
negate only single conditions: of any depth and for all outcomes of the conditions, the filter
expression matches exactly if its boolean value is true. -/
theorem expression_value_partial (val : Bytes → Bool) (e : Expr) (hok : e.Ok) :
    matchTerms val (e.write.map compileTerm) = e.value val := by
  obtain ⟨⟨cw, hv, hr⟩, _⟩ := read_expr val e hok
  unfold matchTerms
  refine matchSyms_acc (b := e.value val) ⟨(cw, []), ?_, rfl, hv⟩
  have := hr []
  unfold str at this
  rw [List.map_map]
  exact this

/-- `( a | -b ) c ( d | e f... )` written as tokens. -/
example : (Expr.and (.or (.cond (lit "a")) (.neg (lit "b"))) (.and (.cond (lit "c")) (.or (.cond (lit "d"))
    (.and (.cond (lit "e")) (.cond (lit "f")))))).write =
    [lit "(", lit "a", lit "|", lit "-b", lit ")", lit "c", lit "(", lit "d", lit "|", lit "(", lit "e", lit "f",
      lit ")", lit ")"] := by decide +kernel

/-- A negated bracket: the sign is ignored, so that `-( a )` matches exactly if `a` does. -/
theorem negated_bracket_ignored (val : Bytes → Bool) (body : Bytes)
    (h : (Expr.cond body).Ok) :
    matchTerms val ([lit "-(", body, lit ")"].map compileTerm) = val body := by
  have := expression_value_partial val (.group (.cond body)) h
  exact this

/-- Conjunction and disjunction mixed in one group: redundant brackets around a single condition change
the result, so that no rule of precedence describes it. With `a`, `b` true and `c` false, `a | b c` matches but
`a | b ( c )` does not. -/
theorem mixed_group_inconsistent :
    ∃ val : Bytes → Bool,
      matchTerms val ([lit "a", lit "|", lit "b", lit "c"].map compileTerm) = true ∧
      matchTerms val ([lit "a", lit "|", lit "b", lit "(", lit "c", lit ")"].map compileTerm) = false :=
  ⟨fun b => b != lit "c", by decide +kernel, by decide +kernel⟩

end Verif.FeedExpr
