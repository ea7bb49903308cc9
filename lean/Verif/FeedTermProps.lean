import Verif.FeedTerm
import Verif.FeedFilterProps
import Verif.OptOldProps
import Verif.RpcParamProps
/-
The conditions of feed rules (C142).
-/
namespace Verif.FeedTerm
open CStr Rpc OptStore

/-! ### Specification -/

/-- How the comparisons are written. -/
def written : List (String × Cmd) := [("=", .eq), ("<", .lt), ("<=", .le), (">", .gt), (">=", .ge)]

/-- What they mean. -/
def Means : Cmd → Int → Int → Prop
  | .eq, a, b => a = b
  | .lt, a, b => a < b
  | .le, a, b => a ≤ b
  | .gt, a, b => b < a
  | .ge, a, b => b ≤ a
  | _, _, _ => False

/-- How the units of sizes are written (in any case), and how many bytes they are. -/
def sizes : List (String × Nat) :=
  [("", 1), ("K", 1024), ("KB", 1024), ("M", 1048576), ("MB", 1048576), ("G", 1073741824), ("GB", 1073741824)]

/-- How the units of ages are written (in any case), and how many seconds they are. -/
def ages : List (String × Nat) := [("", 86400), ("m", 60), ("h", 3600), ("d", 86400)]

/-- The sign of a condition: nothing, plus or minus. -/
inductive Sign where
  | none | plus | minus
deriving DecidableEq, Repr

def Sign.write : Sign → Bytes
  | .none => []
  | .plus => [43]
  | .minus => [45]

/-- The condition holds as it stands, or with minus exactly if it does not. -/
def Sign.says (s : Sign) (p : Prop) : Prop := if s = .minus then ¬ p else p

/-- The number of an item a field is about. -/
def numberOf (i : Info) : List (String × Int) :=
  [("imdbid", i.imdb), ("rageid", i.rage), ("tvdbid", i.tvdb), ("tvmazeid", i.tvmaze), ("season", i.season), ("episode", i.episode),
   ("priority", i.priority), ("dupescore", i.score)]

/-- The text of an item a field is about. -/
def textOf (i : Info) : List (String × Option Bytes) :=
  [("title", i.title), ("filename", i.filename), ("category", i.category), ("link", i.url), ("url", i.url), ("description", i.description),
   ("dupekey", i.key), ("dupestatus", i.dupes)]

/-! ### Names -/

theorem lower_fix {c : UInt8} (h : ¬ (97 ≤ c.toNat ∧ c.toNat ≤ 122)) (d : UInt8) (hd : WildMask.lower d = c) : d = c := by
  unfold WildMask.lower at hd
  split at hd
  · rename_i g
    refine absurd ?_ h
    rw [← hd]
    have : (UInt8.ofNat (d.toNat + 32)).toNat = d.toNat + 32 := by
      rw [UInt8.toNat_ofNat']; omega
    omega
  · exact hd

theorem same_mem {a b : Bytes} (h : Same a b) {c : UInt8} (hc : ¬ (97 ≤ c.toNat ∧ c.toNat ≤ 122)) (hl : WildMask.lower c = c) (hm : c ∈ a) : c ∈ b := by
  have : c ∈ a.map WildMask.lower := List.mem_map.2 ⟨c, hm, hl⟩
  rw [show a.map WildMask.lower = b.map WildMask.lower from h] at this
  obtain ⟨d, hd, e⟩ := List.mem_map.1 this
  rw [← lower_fix hc d e]; exact hd

theorem same_head {a b : Bytes} (h : Same a b) {c : UInt8} (hc : ¬ (97 ≤ c.toNat ∧ c.toNat ≤ 122)) (hl : WildMask.lower c = c)
    (hm : a.head? = some c) : b.head? = some c := by
  cases a with
  | nil => cases hm
  | cons x a =>
    cases hm
    cases b with
    | nil => cases h
    | cons y b =>
      have : WildMask.lower c = WildMask.lower y := (List.cons.inj h).1
      rw [hl] at this
      rw [lower_fix hc y this.symm]; rfl

theorem cutAt_first {c : UInt8} : ∀ {a : Bytes} (s : Bytes), c ∉ a → cutAt c (a ++ c :: s) = some (a, s)
  | [], s, _ => by simp [cutAt]
  | x :: a, s, h => by
    have hx : ¬ x = c := fun e => h (e ▸ List.mem_cons_self)
    rw [List.cons_append, cutAt, if_neg hx, cutAt_first s (fun g => h (List.mem_cons_of_mem _ g))]
    rfl

theorem cutAt_none {c : UInt8} : ∀ {a : Bytes}, c ∉ a → cutAt c a = none
  | [], _ => rfl
  | x :: a, h => by
    have hx : ¬ x = c := fun e => h (e ▸ List.mem_cons_self)
    rw [cutAt, if_neg hx, cutAt_none (fun g => h (List.mem_cons_of_mem _ g))]
    rfl

theorem fieldOf_same {a b : Bytes} (h : Same a b) (hn : (names.find? (fun e => eqNoCase b (lit e.1))).isSome) : fieldOf a = fieldOf b := by
  unfold fieldOf
  have : (fun e : String × Field => eqNoCase a (lit e.1)) = fun e => eqNoCase b (lit e.1) := funext fun e => eqNoCase_congr h _
  rw [this]
  cases hf : names.find? (fun e => eqNoCase b (lit e.1)) with
  | none => rw [hf] at hn; cases hn
  | some e => rfl

/-- The names of the fields contain no colon and begin with a letter. -/
theorem proper_names : ∀ e ∈ names, (58 : UInt8) ∉ lit e.1 ∧ fieldOf (lit e.1) = some e.2 ∧
    (names.find? (fun x => eqNoCase (lit e.1) (lit x.1))).isSome = true ∧
    ∀ c ∈ ([64, 36, 60, 62, 61, 43, 45, 40, 41, 124] : Bytes), (lit e.1).head? ≠ some c := by decide +kernel

theorem compile_sign (o : Num) (s : Sign) (body : Bytes) (h : ∀ c ∈ ([43, 45, 40, 41, 124] : Bytes), body.head? ≠ some c) :
    compile o (s.write ++ body) = compileBody o (decide (s ≠ .minus)) body := by
  have hb : ∀ c ∈ ([40, 41, 124] : Bytes), ¬ body = [c] := by
    intro c hc e
    refine h c ?_ (by rw [e]; rfl)
    simp only [List.mem_cons, List.not_mem_nil, or_false] at hc ⊢
    rcases hc with q | q | q <;> simp [q]
  have b1 := hb 40 (by simp)
  have b2 := hb 41 (by simp)
  have b3 := hb 124 (by simp)
  unfold compile FeedExpr.compileTerm
  cases s with
  | none =>
    have h1 : ¬ body.head? = some 45 := h 45 (by simp)
    have h2 : ¬ body.head? = some 43 := h 43 (by simp)
    simp only [Sign.write, List.nil_append, h1, h2, or_self, if_false, b1, b2, b3]
    rw [show (body.head? != some 45) = true by simpa using h1]
    simp
  | plus =>
    simp [Sign.write, b1, b2, b3]
    rfl
  | minus => simp [Sign.write, b1, b2, b3]

/-- A condition with the name of a field. -/
theorem compile_field (o : Num) (s : Sign) {e : String × Field} (he : e ∈ names) {name : Bytes} (hn : Same name (lit e.1)) {rest : Bytes} (hr : rest ≠ []) :
    compile o (s.write ++ name ++ 58 :: rest) = (parseParam o e.2 (cmdOf rest).1 (cmdOf rest).2).map
      (fun v => ⟨decide (s ≠ .minus), e.2, (cmdOf rest).1, (cmdOf rest).2, v.1, v.2⟩) := by
  obtain ⟨p1, p2, p3, p4⟩ := proper_names e he
  have hh : ∀ c ∈ ([64, 36, 60, 62, 61, 43, 45, 40, 41, 124] : Bytes), (name ++ 58 :: rest).head? ≠ some c := by
    intro c hc hx
    cases name with
    | nil =>
      rw [List.nil_append, List.head?_cons] at hx
      simp only [Option.some.injEq] at hx
      rw [← hx] at hc
      exact absurd hc (by decide)
    | cons x name =>
      refine p4 c hc (same_head hn ?_ ?_ ?_)
      · clear hx; revert c; decide
      · clear hx; revert c; decide
      · simpa using hx
  rw [List.append_assoc, compile_sign o s _ (fun c hc => hh c (by
    simp only [List.mem_cons, List.not_mem_nil, or_false] at hc ⊢
    rcases hc with q | q | q | q | q <;> simp [q]))]
  have hs : special (name ++ 58 :: rest).head? = false := by
    unfold special
    have a1 := hh 64 (by simp)
    have a2 := hh 36 (by simp)
    have a3 := hh 60 (by simp)
    have a4 := hh 62 (by simp)
    have a5 := hh 61 (by simp)
    generalize (name ++ 58 :: rest).head? = x at *
    simp [a1, a2, a3, a4, a5]
  have hc : (58 : UInt8) ∉ name := fun g => p1 (same_mem hn (by decide) (by decide) g)
  unfold compileBody
  rw [hs, if_neg (by decide), cutAt_first rest hc]
  dsimp only
  rw [if_neg hr, fieldOf_same hn p3, p2]

/-! ### Comparisons -/

theorem cmdOf_written {w : String × Cmd} (hw : w ∈ written) (p : Bytes) (hp : p.head? ≠ some 61) : cmdOf (lit w.1 ++ p) = (w.2, p) := by
  unfold written at hw
  simp only [List.mem_cons, List.not_mem_nil, or_false] at hw
  have e1 : lit "=" = [61] := by decide +kernel
  have e2 : lit "<" = [60] := by decide +kernel
  have e3 : lit "<=" = [60, 61] := by decide +kernel
  have e4 : lit ">" = [62] := by decide +kernel
  have e5 : lit ">=" = [62, 61] := by decide +kernel
  rcases hw with q | q | q | q | q <;> subst q
  · rw [e1]; rfl
  · rw [e2]
    cases p with
    | nil => rfl
    | cons x p =>
      have : x ≠ 61 := fun g => hp (by rw [g]; rfl)
      unfold cmdOf
      simp [this]
  · rw [e3]; rfl
  · rw [e4]
    cases p with
    | nil => rfl
    | cons x p =>
      have : x ≠ 61 := fun g => hp (by rw [g]; rfl)
      unfold cmdOf
      simp [this]
  · rw [e5]; rfl

theorem written_ne {w : String × Cmd} (hw : w ∈ written) : lit w.1 ≠ [] ∧ w.2.numeric = true := by revert w; decide +kernel

theorem test_means {w : String × Cmd} (hw : w ∈ written) (a b : Int) : w.2.test a b = true ↔ Means w.2 a b := by
  unfold written at hw
  simp only [List.mem_cons, List.not_mem_nil, or_false] at hw
  rcases hw with q | q | q | q | q <;> subst q <;> simp [Cmd.test, Means]

/-- Whether a condition about a number holds. -/
theorem holds_number (o : Num) (now : Int) (i : Info) (s : Sign) {w : String × Cmd} (hw : w ∈ written) (f : Field) (p : Bytes) (n v : Int)
    (hd : dataOf now i f = (none, v)) :
    holds o now i ⟨decide (s ≠ .minus), f, w.2, p, n, false⟩ = true ↔ s.says (Means w.2 v n) := by
  unfold holds
  dsimp only
  rw [hd]
  have hm : matchValue o ⟨decide (s ≠ .minus), f, w.2, p, n, false⟩ (none, v) = w.2.test v n := by
    have := (written_ne hw).2
    unfold matchValue
    cases hc : w.2 <;> simp [hc, Cmd.numeric] at this ⊢
  rw [hm, ← test_means hw]
  unfold Sign.says
  cases s <;> cases w.2.test v n <;> simp

theorem dec_numChar (n : Nat) : ∀ b ∈ dec n, numChar b = true := fun b h => by unfold numChar; rw [isDigit_dec n b h]; rfl

theorem scaled_dec (o : Num) (n m : Nat) (h : n * m ≤ 2 ^ 53) (hm : 0 < m) : scaled o (dec n) m = (n * m : Nat) := by
  have hn : n < 2 ^ 63 := by
    have : n ≤ n * m := Nat.le_mul_of_pos_right n hm
    omega
  have ha : atoll (dec n) = n := by
    have := atoll_dec n [] hn (by simp)
    rwa [List.append_nil] at this
  have hp : plain (dec n) = true := by
    unfold plain
    rw [List.all_eq_true.2 (isDigit_dec n)]; rfl
  unfold scaled
  rw [ha, hp, if_pos ⟨rfl, by simpa using h⟩]
  simp

theorem unit_split (n : Nat) {u : Bytes} (hu : ∀ b, u.head? = some b → numChar b = false) :
    (dec n ++ u).takeWhile numChar = dec n ∧ (dec n ++ u).dropWhile numChar = u := by
  have h := dec_numChar n
  generalize dec n = d at h
  induction d with
  | nil =>
    cases u with
    | nil => exact ⟨rfl, rfl⟩
    | cons b u => 
      have := hu b rfl
      simp [this]
  | cons x d ih =>
    have hx := h x List.mem_cons_self
    have := ih (fun b hb => h b (List.mem_cons_of_mem _ hb))
    simp [hx, this]

theorem dec_head (n : Nat) (u : Bytes) : (dec n ++ u).head? ≠ some 61 := by
  obtain ⟨d, l, h, hd⟩ := decAux_ne_nil (n + 1) n (by omega)
  unfold dec
  rw [h]
  intro q
  have : d = 61 := by simpa using q
  rw [this] at hd; exact absurd hd (by decide)

theorem lower_numChar {b : UInt8} (h : numChar b = true) : WildMask.lower b = b ∧ ¬ (97 ≤ b.toNat ∧ b.toNat ≤ 122) := by
  unfold numChar isDigit at h
  simp only [Bool.or_eq_true, Bool.and_eq_true, decide_eq_true_eq, beq_iff_eq] at h
  have : b.toNat < 65 := by
    rcases h with h | h
    · omega
    · rw [h]; decide
  refine ⟨?_, by omega⟩
  unfold WildMask.lower
  rw [if_neg (by omega)]

theorem unit_head {x : String} {u : Bytes} (hu : Same u (lit x)) (hx : ∀ b, (lit x).head? = some b → numChar b = false) :
    ∀ b, u.head? = some b → numChar b = false := by
  intro b hb
  cases hn : numChar b with
  | false => rfl
  | true =>
    have := lower_numChar hn
    have := hx b (same_head hu this.2 this.1 hb)
    rw [hn] at this; exact this

theorem size_units : ∀ x ∈ sizes, sizeUnit (lit x.1) = some x.2 ∧ (∀ b, (lit x.1).head? = some b → numChar b = false) ∧ 0 < x.2 := by
  intro x hx
  refine ⟨?_, ?_, ?_⟩
  · revert x; decide +kernel
  · intro b hb
    have : ∀ x ∈ sizes, ((lit x.1).head?.map numChar).getD false = false := by decide +kernel
    have := this x hx
    rw [hb] at this; exact this
  · revert x; decide +kernel

theorem age_units : ∀ x ∈ ages, ageUnit (lit x.1) = some x.2 ∧ (∀ b, (lit x.1).head? = some b → numChar b = false) ∧ 0 < x.2 := by
  intro x hx
  refine ⟨?_, ?_, ?_⟩
  · revert x; decide +kernel
  · intro b hb
    have : ∀ x ∈ ages, ((lit x.1).head?.map numChar).getD false = false := by decide +kernel
    have := this x hx
    rw [hb] at this; exact this
  · revert x; decide +kernel

theorem same_nil {u : Bytes} {v : Bytes} (h : Same u v) : u = [] ↔ v = [] := by
  unfold Same at h
  cases u <;> cases v <;> simp_all

theorem sizeUnit_same {u v : Bytes} (h : Same u v) : sizeUnit u = sizeUnit v := by
  unfold sizeUnit
  simp only [eqNoCase_congr h, same_nil h]

theorem ageUnit_same {u v : Bytes} (h : Same u v) : ageUnit u = ageUnit v := by
  unfold ageUnit
  simp only [eqNoCase_congr h, same_nil h]

/-- C142: a condition about the size: `size:` in any case, a comparison, digits and a unit in any case. It is met exactly by the items whose
size compares like that with the number of bytes; with a minus exactly by the others. -/
theorem size_condition_partial (o : Num) (now : Int) (i : Info) (s : Sign) (name : Bytes) (hn : Same name (lit "size")) (w : String × Cmd) (hw : w ∈ written)
    (n : Nat) (x : String × Nat) (hx : x ∈ sizes) (u : Bytes) (hu : Same u (lit x.1)) (hb : n * x.2 ≤ 2 ^ 53) :
    ∃ c, compile o (s.write ++ name ++ 58 :: (lit w.1 ++ (dec n ++ u))) = some c ∧
      (holds o now i c = true ↔ s.says (Means w.2 i.size (n * x.2 : Nat))) := by
  have hr : lit w.1 ++ (dec n ++ u) ≠ [] := by
    intro e; exact (written_ne hw).1 (List.append_eq_nil_iff.1 e).1
  obtain ⟨k1, k2, k3⟩ := size_units x hx
  have hp : parseParam o .size w.2 (dec n ++ u) = some (((n * x.2 : Nat) : Int), false) := by
    show (parseUnit o sizeUnit (dec n ++ u)).map (·, false) = _
    unfold parseUnit
    rw [(unit_split n (unit_head hu k2)).1, (unit_split n (unit_head hu k2)).2, sizeUnit_same hu, k1]
    simp only [Option.map_some, scaled_dec o n x.2 hb k3]
  refine ⟨⟨decide (s ≠ .minus), .size, w.2, dec n ++ u, (n * x.2 : Nat), false⟩, ?_, ?_⟩
  · rw [compile_field o s (e := ("size", .size)) (by decide +kernel) hn hr, cmdOf_written hw _ (dec_head n u)]
    dsimp only
    rw [hp]; rfl
  · exact holds_number o now i s hw .size _ _ _ rfl

/-- C142: a condition about the age. Without a unit the age is in days. -/
theorem age_condition_partial (o : Num) (now : Int) (i : Info) (s : Sign) (name : Bytes) (hn : Same name (lit "age")) (w : String × Cmd) (hw : w ∈ written)
    (n : Nat) (x : String × Nat) (hx : x ∈ ages) (u : Bytes) (hu : Same u (lit x.1)) (hb : n * x.2 ≤ 2 ^ 53) :
    ∃ c, compile o (s.write ++ name ++ 58 :: (lit w.1 ++ (dec n ++ u))) = some c ∧
      (holds o now i c = true ↔ s.says (Means w.2 (now - i.time) (n * x.2 : Nat))) := by
  have hr : lit w.1 ++ (dec n ++ u) ≠ [] := by
    intro e; exact (written_ne hw).1 (List.append_eq_nil_iff.1 e).1
  obtain ⟨k1, k2, k3⟩ := age_units x hx
  have hp : parseParam o .age w.2 (dec n ++ u) = some (((n * x.2 : Nat) : Int), false) := by
    show (parseUnit o ageUnit (dec n ++ u)).map (·, false) = _
    unfold parseUnit
    rw [(unit_split n (unit_head hu k2)).1, (unit_split n (unit_head hu k2)).2, ageUnit_same hu, k1]
    simp only [Option.map_some, scaled_dec o n x.2 hb k3]
  refine ⟨⟨decide (s ≠ .minus), .age, w.2, dec n ++ u, (n * x.2 : Nat), false⟩, ?_, ?_⟩
  · rw [compile_field o s (e := ("age", .age)) (by decide +kernel) hn hr, cmdOf_written hw _ (dec_head n u)]
    dsimp only
    rw [hp]; rfl
  · exact holds_number o now i s hw .age _ _ _ rfl

/-! ### Other numbers -/

/-- The fields which are numbers. -/
def numbers : List (String × Field) :=
  [("imdbid", .imdb), ("rageid", .rage), ("tvdbid", .tvdb), ("tvmazeid", .tvmaze), ("season", .season), ("episode", .episode),
   ("priority", .priority), ("dupescore", .score)]

theorem numbers_names : ∀ e ∈ numbers, e ∈ names ∧ e.2 ≠ .size ∧ e.2 ≠ .age := by decide +kernel

theorem numbers_data (now : Int) (i : Info) {e : String × Int} (he : e ∈ numberOf i) :
    ∃ f, (e.1, f) ∈ numbers ∧ dataOf now i f = (none, e.2) := by
  unfold numberOf at he
  simp only [List.mem_cons, List.not_mem_nil, or_false] at he
  rcases he with q | q | q | q | q | q | q | q <;> subst q
  · exact ⟨.imdb, by dsimp only; decide +kernel, rfl⟩
  · exact ⟨.rage, by dsimp only; decide +kernel, rfl⟩
  · exact ⟨.tvdb, by dsimp only; decide +kernel, rfl⟩
  · exact ⟨.tvmaze, by dsimp only; decide +kernel, rfl⟩
  · exact ⟨.season, by dsimp only; decide +kernel, rfl⟩
  · exact ⟨.episode, by dsimp only; decide +kernel, rfl⟩
  · exact ⟨.priority, by dsimp only; decide +kernel, rfl⟩
  · exact ⟨.score, by dsimp only; decide +kernel, rfl⟩

theorem parse_plain (o : Num) (f : Field) (h1 : f ≠ .size) (h2 : f ≠ .age) (c : Cmd) (hc : c.numeric = true) (p : Bytes) :
    parseParam o f c p = parseNumber o p := by
  unfold parseParam
  cases f <;> simp_all

theorem atoll_neg (n : Nat) (hn : n < 2 ^ 63) : atoll (45 :: dec n) = -(n : Int) := by
  unfold atoll
  have hsp : (45 :: dec n).dropWhile isSpace = 45 :: dec n := by
    rw [List.dropWhile_cons]
    rw [if_neg (by decide)]
  rw [hsp]
  dsimp only
  rw [if_pos rfl]
  have := digits_dec n [] (by simp)
  rw [List.append_nil] at this
  rw [this]
  unfold clamp64
  omega

theorem scaled_int (o : Num) (n : Int) (h : n.natAbs ≤ 2 ^ 53) : scaled o (decInt n) 1 = n := by
  unfold decInt
  by_cases hn : n < 0
  · rw [if_pos hn]
    unfold scaled
    have ha := atoll_neg n.natAbs (by omega)
    have hp : plain (45 :: dec n.natAbs) = true := by
      unfold plain
      rw [List.tail_cons, List.all_eq_true.2 (isDigit_dec n.natAbs)]
      simp
    rw [ha, hp, if_pos ⟨rfl, by simpa using h⟩]
    omega
  · rw [if_neg hn, scaled_dec o n.natAbs 1 (by omega) (by omega)]
    omega

theorem decInt_chars (n : Int) : ∀ b ∈ decInt n, isDigit b = true ∨ b = 45 := by
  intro b hb
  unfold decInt at hb
  split at hb
  · rcases List.mem_cons.1 hb with q | q
    · exact .inr q
    · exact .inl (isDigit_dec _ b q)
  · exact .inl (isDigit_dec _ b hb)

theorem parseNumber_int (o : Num) (n : Int) (h : n.natAbs ≤ 2 ^ 53) : parseNumber o (decInt n) = some (n, false) := by
  unfold parseNumber
  rw [if_pos, scaled_int o n h]
  · have : (decInt n).contains 46 = false := by
      rw [Bool.eq_false_iff]
      intro g
      rcases decInt_chars n 46 (List.contains_iff_mem.1 g) with q | q
      · exact absurd q (by decide)
      · exact absurd q (by decide)
    rw [this]
  · rw [List.all_eq_true]
    intro b hb
    rcases decInt_chars n b hb with q | q <;> simp [q]

/-- C142: a condition about a number of the item: season, episode, priority and so on, with an integer, also a negative one. -/
theorem number_condition_partial (o : Num) (now : Int) (i : Info) (s : Sign) (e : String × Int) (he : e ∈ numberOf i) (name : Bytes)
    (hn : Same name (lit e.1)) (w : String × Cmd) (hw : w ∈ written) (n : Int) (hb : n.natAbs ≤ 2 ^ 53) :
    ∃ c, compile o (s.write ++ name ++ 58 :: (lit w.1 ++ decInt n)) = some c ∧ (holds o now i c = true ↔ s.says (Means w.2 e.2 n)) := by
  obtain ⟨f, hf, hd⟩ := numbers_data now i he
  obtain ⟨m1, m2, m3⟩ := numbers_names _ hf
  have hr : lit w.1 ++ decInt n ≠ [] := by
    intro e; exact (written_ne hw).1 (List.append_eq_nil_iff.1 e).1
  have hh : (decInt n).head? ≠ some 61 := by
    intro q
    have : (61 : UInt8) ∈ decInt n := List.mem_of_mem_head? q
    rcases decInt_chars n 61 this with q | q <;> exact absurd q (by decide)
  refine ⟨⟨decide (s ≠ .minus), f, w.2, decInt n, n, false⟩, ?_, ?_⟩
  · rw [compile_field o s (e := (e.1, f)) m1 hn hr, cmdOf_written hw _ hh]
    dsimp only
    rw [parse_plain o f m2 m3 w.2 (written_ne hw).2, parseNumber_int o n hb]; rfl
  · exact holds_number o now i s hw f _ _ _ hd

/-! ### Texts -/

theorem texts_data (now : Int) (i : Info) {e : String × Option Bytes} (he : e ∈ textOf i) :
    ∃ f, (e.1, f) ∈ names ∧ f ≠ .size ∧ f ≠ .age ∧ dataOf now i f = (e.2, 0) := by
  unfold textOf at he
  simp only [List.mem_cons, List.not_mem_nil, or_false] at he
  rcases he with q | q | q | q | q | q | q | q <;> subst q
  · exact ⟨.title, by dsimp only; decide +kernel, nofun, nofun, rfl⟩
  · exact ⟨.filename, by dsimp only; decide +kernel, nofun, nofun, rfl⟩
  · exact ⟨.category, by dsimp only; decide +kernel, nofun, nofun, rfl⟩
  · exact ⟨.url, by dsimp only; decide +kernel, nofun, nofun, rfl⟩
  · exact ⟨.url, by dsimp only; decide +kernel, nofun, nofun, rfl⟩
  · exact ⟨.description, by dsimp only; decide +kernel, nofun, nofun, rfl⟩
  · exact ⟨.key, by dsimp only; decide +kernel, nofun, nofun, rfl⟩
  · exact ⟨.dupes, by dsimp only; decide +kernel, nofun, nofun, rfl⟩

theorem cmdOf_text {p : Bytes} (hs : special p.head? = false) : cmdOf p = (.text, p) := by
  unfold special at hs
  simp only [Bool.or_eq_false_iff, beq_eq_false_iff_ne, ne_eq] at hs
  obtain ⟨⟨⟨⟨h1, h2⟩, h3⟩, h4⟩, h5⟩ := hs
  cases p with
  | nil => rfl
  | cons x p =>
    simp only [List.head?_cons, Option.some.injEq] at h1 h2 h3 h4 h5
    unfold cmdOf
    split <;> simp_all

theorem parse_text (o : Num) (f : Field) (h1 : f ≠ .size) (h2 : f ≠ .age) (p : Bytes) : parseParam o f .text p = some (0, false) := by
  unfold parseParam
  cases f <;> simp_all [Cmd.numeric]

theorem holds_text (o : Num) (now : Int) (i : Info) (s : Sign) (f : Field) (p t : Bytes) (n : Int) (b : Bool) (v : Int) (hd : dataOf now i f = (some t, v)) :
    holds o now i ⟨decide (s ≠ .minus), f, .text, p, n, b⟩ = true ↔ s.says (FeedFilter.matchText p t = true) := by
  unfold holds matchValue
  dsimp only
  rw [hd]
  show (decide (s ≠ .minus) == FeedFilter.matchText p t) = true ↔ _
  generalize FeedFilter.matchText p t = r
  unfold Sign.says
  cases s <;> cases r <;> simp

/-- C142: a condition about a text of the item, written with the name of the field; what a text meets is said by C58. -/
theorem text_field_condition (o : Num) (now : Int) (i : Info) (s : Sign) (e : String × Option Bytes) (he : e ∈ textOf i) (t : Bytes) (ht : e.2 = some t)
    (name : Bytes) (hn : Same name (lit e.1)) (p : Bytes) (hp : p ≠ []) (hs : special p.head? = false) :
    ∃ c, compile o (s.write ++ name ++ 58 :: p) = some c ∧ (holds o now i c = true ↔ s.says (FeedFilter.matchText p t = true)) := by
  obtain ⟨f, hf, m2, m3, hd⟩ := texts_data now i he
  refine ⟨⟨decide (s ≠ .minus), f, .text, p, 0, false⟩, ?_, ?_⟩
  · rw [compile_field o s (e := (e.1, f)) hf hn hp, cmdOf_text hs]
    dsimp only
    rw [parse_text o f m2 m3]; rfl
  · rw [ht] at hd; exact holds_text o now i s f p t 0 false 0 hd

theorem fieldOf_attr (pre x : Bytes) (hp : Same pre (lit "attr-")) : fieldOf (pre ++ x) = some (.attr x) := by
  have hl : pre.length = 5 := by
    have := congrArg List.length hp
    rw [List.length_map, List.length_map] at this
    rw [this]; decide +kernel
  unfold fieldOf
  rw [List.find?_eq_none.2]
  · dsimp only
    rw [show (pre ++ x).take 5 = pre by rw [← hl]; exact List.take_left, show (pre ++ x).drop 5 = x by rw [← hl]; exact List.drop_left,
      if_pos ((same_iff _ _).2 hp)]
  · intro e he g
    rw [same_iff] at g
    have hd : ∀ e ∈ names, ((lit e.1).map WildMask.lower).take 5 ≠ (lit "attr-").map WildMask.lower := by decide +kernel
    refine hd e he ?_
    rw [← show (pre ++ x).map WildMask.lower = _ from g, ← List.map_take, show (pre ++ x).take 5 = pre by rw [← hl]; exact List.take_left]
    exact hp

/-- C142: a condition about an attribute of the item: the first one with this name, in any case. -/
theorem attribute_condition (o : Num) (now : Int) (i : Info) (s : Sign) (pre x : Bytes) (hp : Same pre (lit "attr-")) (hx : (58 : UInt8) ∉ x)
    (before after : List (Bytes × Bytes)) (name t : Bytes) (hi : i.attrs = before ++ (name, t) :: after) (hn : Same name x)
    (hb : ∀ a ∈ before, ¬ Same a.1 x) (p : Bytes) (hne : p ≠ []) (hs : special p.head? = false) :
    ∃ c, compile o (s.write ++ (pre ++ x ++ 58 :: p)) = some c ∧ (holds o now i c = true ↔ s.says (FeedFilter.matchText p t = true)) := by
  refine ⟨⟨decide (s ≠ .minus), .attr x, .text, p, 0, false⟩, ?_, ?_⟩
  · have hh : ∀ c ∈ ([64, 36, 60, 62, 61, 43, 45, 40, 41, 124] : Bytes), (pre ++ x ++ 58 :: p).head? ≠ some c := by
      intro c hc hq
      cases pre with
      | nil => exact absurd (congrArg List.length hp) (by decide)
      | cons y pre =>
        have hy : (y :: pre).head? = some c := by simpa using hq
        have : (lit "attr-").head? = some c := by
          refine same_head hp ?_ ?_ hy
          · clear hy hq; revert c; decide
          · clear hy hq; revert c; decide
        rw [show (lit "attr-").head? = some 97 by decide +kernel] at this
        cases this
        exact absurd hc (by decide)
    rw [compile_sign o s _ (fun c hc => hh c (by
      simp only [List.mem_cons, List.not_mem_nil, or_false] at hc ⊢
      rcases hc with q | q | q | q | q <;> simp [q]))]
    have hsp : special (pre ++ x ++ 58 :: p).head? = false := by
      unfold special
      have a1 := hh 64 (by simp)
      have a2 := hh 36 (by simp)
      have a3 := hh 60 (by simp)
      have a4 := hh 62 (by simp)
      have a5 := hh 61 (by simp)
      generalize (pre ++ x ++ 58 :: p).head? = y at *
      simp [a1, a2, a3, a4, a5]
    have hc : (58 : UInt8) ∉ pre ++ x := by
      intro g
      rcases List.mem_append.1 g with g | g
      · exact absurd (same_mem hp (by decide) (by decide) g) (by decide +kernel)
      · exact hx g
    unfold compileBody
    rw [hsp, if_neg (by decide), cutAt_first p hc]
    dsimp only
    rw [if_neg hne, fieldOf_attr pre x hp, cmdOf_text hs]
    rfl
  · refine holds_text o now i s (.attr x) p t 0 false 0 ?_
    show ((i.attrs.find? (fun a => eqNoCase a.1 x)).map (·.2), (0 : Int)) = _
    rw [hi, List.find?_append, List.find?_eq_none.2 (fun a ha => by rw [same_iff]; exact hb a ha), List.find?_cons, (same_iff _ _).2 hn]
    rfl

/-- C142: a condition without the name of a field is about the title. -/
theorem title_condition (o : Num) (now : Int) (i : Info) (s : Sign) (t : Bytes) (ht : i.title = some t) (p : Bytes) (hp : p ≠ [])
    (hs : special p.head? = false) (hc : (58 : UInt8) ∉ p) (hb : ∀ c ∈ ([43, 45, 40, 41, 124] : Bytes), p.head? ≠ some c) :
    ∃ c, compile o (s.write ++ p) = some c ∧ (holds o now i c = true ↔ s.says (FeedFilter.matchText p t = true)) := by
  refine ⟨⟨decide (s ≠ .minus), .title, .text, p, 0, false⟩, ?_, ?_⟩
  · rw [compile_sign o s p hb]
    unfold compileBody
    rw [hs, if_neg (by decide), cutAt_none hc]
    dsimp only
    rw [if_neg hp, cmdOf_text hs]
  · refine holds_text o now i s .title p t 0 false 0 ?_
    show (i.title, (0 : Int)) = _
    rw [ht]

/-! ### Rules which are not valid -/

/-- C142: a condition about a field which does not exist makes the rule invalid. -/
theorem unknown_field (o : Num) (s : Sign) (name p : Bytes) (h1 : ∀ e ∈ names, ¬ Same name (lit e.1)) (h2 : ¬ Same (name.take 5) (lit "attr-"))
    (h3 : (58 : UInt8) ∉ name) (h4 : name ≠ []) (h5 : special name.head? = false) (hb : ∀ c ∈ ([43, 45, 40, 41, 124] : Bytes), name.head? ≠ some c) :
    compile o (s.write ++ (name ++ 58 :: p)) = none := by
  have hh : (name ++ 58 :: p).head? = name.head? := by cases name with | nil => exact absurd rfl h4 | cons x l => rfl
  rw [compile_sign o s _ (by rw [hh]; exact hb)]
  unfold compileBody
  rw [hh, h5, if_neg (by decide), cutAt_first p h3]
  dsimp only
  have hf : fieldOf name = none := by
    unfold fieldOf
    rw [List.find?_eq_none.2 (fun e he => by rw [same_iff]; exact h1 e he)]
    dsimp only
    rw [if_neg (by rw [same_iff]; exact h2)]
  rw [hf]
  split <;> rfl

/-- C142: a size with anything but a unit behind the digits makes the rule invalid. -/
theorem unknown_unit (o : Num) (s : Sign) (name : Bytes) (hn : Same name (lit "size")) (w : String × Cmd) (hw : w ∈ written) (n : Nat) (u : Bytes)
    (hu : ∀ x ∈ sizes, ¬ Same u (lit x.1)) (h1 : ∀ b, u.head? = some b → numChar b = false) :
    compile o (s.write ++ name ++ 58 :: (lit w.1 ++ (dec n ++ u))) = none := by
  have hr : lit w.1 ++ (dec n ++ u) ≠ [] := by
    intro e; exact (written_ne hw).1 (List.append_eq_nil_iff.1 e).1
  rw [compile_field o s (e := ("size", .size)) (by decide +kernel) hn hr, cmdOf_written hw _ (dec_head n u)]
  have hz : sizeUnit u = none := by
    have k : ∀ x : String × Nat, x ∈ sizes → eqNoCase u (lit x.1) = false := fun x hx => by
      rw [← Bool.not_eq_true, same_iff]; exact hu x hx
    unfold sizeUnit
    rw [if_neg, k ("K", 1024) (by decide +kernel), k ("KB", 1024) (by decide +kernel), k ("M", 1048576) (by decide +kernel), k ("MB", 1048576) (by decide +kernel),
      k ("G", 1073741824) (by decide +kernel), k ("GB", 1073741824) (by decide +kernel)]
    · rfl
    · intro e
      refine hu ("", 1) (by decide +kernel) ?_
      rw [e]; decide +kernel
  have hp : parseParam o .size w.2 (dec n ++ u) = none := by
    show (parseUnit o sizeUnit (dec n ++ u)).map (·, false) = _
    unfold parseUnit
    rw [(unit_split n h1).2, hz]
    rfl
  dsimp only
  rw [hp]; rfl

/-! ### What goes wrong -/

/-- C142, refuted: a comparison without the name of a field is valid, but its number is not read: the number in the title is compared with 0. -/
theorem no_field_no_number (o : Num) (now : Int) (i : Info) (w : String × Cmd) (hw : w ∈ written) (n m : Nat) :
    ∃ c d, compile o (lit w.1 ++ dec n) = some c ∧ compile o (lit w.1 ++ dec m) = some d ∧ c.int = 0 ∧ d.int = 0 ∧ holds o now i c = holds o now i d := by
  have hsp : ∀ w ∈ written, special (lit w.1).head? = true ∧ lit w.1 ≠ [] ∧ ∀ c ∈ ([43, 45, 40, 41, 124] : Bytes), (lit w.1).head? ≠ some c := by decide +kernel
  obtain ⟨s1, s2, s3⟩ := hsp w hw
  have key : ∀ k : Nat, compile o (lit w.1 ++ dec k) = some ⟨true, .title, w.2, dec k, 0, false⟩ := by
    intro k
    have hh : (lit w.1 ++ dec k).head? = (lit w.1).head? := by
      cases hl : lit w.1 with
      | nil => exact absurd hl s2
      | cons x l => rfl
    have := compile_sign o .none (lit w.1 ++ dec k) (by rw [hh]; exact s3)
    rw [show Sign.write .none ++ (lit w.1 ++ dec k) = lit w.1 ++ dec k from rfl] at this
    rw [this]
    unfold compileBody
    rw [hh, s1, if_pos rfl]
    dsimp only
    have hd := cmdOf_written hw (dec k) (by have := dec_head k []; rwa [List.append_nil] at this)
    rw [if_neg (by intro e; exact s2 (List.append_eq_nil_iff.1 e).1), hd]
    rfl
  refine ⟨_, _, key n, key m, rfl, rfl, ?_⟩
  have := (written_ne hw).2
  unfold holds matchValue
  dsimp only
  cases hc : w.2 <;> simp [hc, Cmd.numeric] at this ⊢

/-- C142, refuted: an item without the attribute meets the condition that the attribute is the text 0; so does an item without a description. -/
theorem missing_is_zero (o : Num) (now : Int) (i : Info) (h : i.attrs = []) (hd : i.description = none) :
    ∃ c d, compile o (lit "attr-grabs:0") = some c ∧ holds o now i c = true ∧ compile o (lit "description:0") = some d ∧ holds o now i d = true := by
  refine ⟨⟨true, .attr (lit "grabs"), .text, lit "0", 0, false⟩, ⟨true, .description, .text, lit "0", 0, false⟩, ?_, ?_, ?_, ?_⟩
  · have e1 : FeedExpr.compileTerm (lit "attr-grabs:0") = .cond true (lit "attr-grabs:0") := by decide +kernel
    unfold compile
    rw [e1]
    have e2 : (if special (lit "attr-grabs:0").head? then none else cutAt 58 (lit "attr-grabs:0")) = some (lit "attr-grabs", lit "0") := by decide +kernel
    have e3 : fieldOf (lit "attr-grabs") = some (.attr (lit "grabs")) := by decide +kernel
    have e4 : cmdOf (lit "0") = (.text, lit "0") := by decide +kernel
    dsimp only
    unfold compileBody
    rw [e2]
    dsimp only
    rw [if_neg (by decide +kernel), e3, e4]
    rfl
  · unfold holds matchValue dataOf
    dsimp only
    rw [h]
    exact (by decide +kernel : (true == FeedFilter.matchText (lit "0") (decInt 0)) = true)
  · have e1 : FeedExpr.compileTerm (lit "description:0") = .cond true (lit "description:0") := by decide +kernel
    unfold compile
    rw [e1]
    have e2 : (if special (lit "description:0").head? then none else cutAt 58 (lit "description:0")) = some (lit "description", lit "0") := by decide +kernel
    have e3 : fieldOf (lit "description") = some .description := by decide +kernel
    have e4 : cmdOf (lit "0") = (.text, lit "0") := by decide +kernel
    dsimp only
    unfold compileBody
    rw [e2]
    dsimp only
    rw [if_neg (by decide +kernel), e3, e4]
    rfl
  · unfold holds matchValue dataOf
    dsimp only
    rw [hd]
    exact (by decide +kernel : (true == FeedFilter.matchText (lit "0") (decInt 0)) = true)

/-! ### Examples -/

def exact : Num := ⟨fun _ _ => 0, fun _ _ _ _ => false, fun _ _ => false⟩

def episode : Info :=
  { title := some (lit "The.Show.S03E11-WEB-DL"), category := some (lit "TV > HD"), size := 1500 * 1048576, time := 1000000, season := 3, episode := 11, priority := -50 }

def met (token : String) : Option Bool := (compile exact (lit token)).map (holds exact (1000000 + 3 * 3600) episode)

example : met "size:>1GB" = some true ∧ met "SIZE:<=1500m" = some true ∧ met "-size:<1499MB" = some true ∧ met "size:>2T" = none := by decide +kernel
example : met "age:<1" = some true ∧ met "age:>=3h" = some true ∧ met "age:>180m" = some false := by decide +kernel
example : met "season:=3" = some true ∧ met "episode:>11" = some false ∧ met "priority:<-49" = some true := by decide +kernel
example : met "category:hd" = some true ∧ met "web-dl" = some true ∧ met "-show" = some false ∧ met "genre:x" = none := by decide +kernel
example : met ">5" = some false ∧ met "=7" = some true := by decide +kernel
example : (58 : UInt8) ∉ lit "web-dl" ∧ special (lit "web-dl").head? = false ∧ ¬ Same ((lit "genre").take 5) (lit "attr-") := by decide +kernel
example : Same (lit "Size") (lit "size") ∧ (">", Cmd.gt) ∈ written ∧ ("GB", 1073741824) ∈ sizes ∧ 3 * 1073741824 ≤ 2 ^ 53 := by decide +kernel

end Verif.FeedTerm
