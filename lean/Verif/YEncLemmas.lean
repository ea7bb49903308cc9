import Verif.YEnc
/-! Byte automaton equivalent to `decode_scalar`, and the lemmas relating both. -/
namespace Verif.YEnc

/-- Result of one byte: bytes produced, and either the next state or the end code with the state
left behind. -/
abbrev StepRes := List UInt8 × (St ⊕ (Nat × St))

def stepNone (b : UInt8) : StepRes :=
  if b = CR then ([], .inl .cr) else if b = LF then ([], .inl .none)
  else if b = EQ then ([], .inl .eq) else ([b - 42], .inl .none)

def stepEq (b : UInt8) : StepRes :=
  ([b - 42 - 64], .inl (if b = CR then .cr else .none))

def step : St → UInt8 → StepRes
  | .none, b => stepNone b
  | .eq, b => stepEq b
  | .cr, b => if b = LF then ([], .inl .crlf) else stepNone b
  | .crlf, b => if b = DOT then ([], .inl .crlfdt) else if b = EQ then ([], .inl .crlfeq) else stepNone b
  | .crlfdt, b => if b = CR then ([], .inl .crlfdtcr) else if b = EQ then ([], .inl .crlfeq) else stepNone b
  | .crlfdtcr, b => if b = LF then ([], .inr (2, .crlf)) else stepNone b
  | .crlfeq, b => if b = LY then ([], .inr (1, .none)) else stepEq b

def run : St → List UInt8 → List UInt8 → Res
  | s, [], out => ⟨0, [], out, s⟩
  | s, b :: l, out =>
    match step s b with
    | (o, .inl s') => run s' l (out ++ o)
    | (o, .inr (code, s')) => ⟨code, l, out ++ o, s'⟩

@[simp] theorem run_nil (s out) : run s [] out = ⟨0, [], out, s⟩ := rfl

theorem CR_ne_LF : CR ≠ LF := by decide
theorem CR_ne_EQ : CR ≠ EQ := by decide
theorem LF_ne_EQ : LF ≠ EQ := by decide
theorem DOT_ne_EQ : DOT ≠ EQ := by decide
theorem DOT_ne_CR : DOT ≠ CR := by decide
theorem EQ_ne_CR : EQ ≠ CR := by decide
theorem EQ_ne_LF : EQ ≠ LF := by decide
theorem EQ_ne_DOT : EQ ≠ DOT := by decide
theorem LF_ne_CR : LF ≠ CR := by decide

theorem fin_eq (l out : List UInt8) (h : l.length ≤ 1) :
    epilogue.fin l out = some (run .none l out) := by
  match l with
  | [] => simp [epilogue.fin]
  | [c] =>
    simp only [epilogue.fin, run, step, stepNone]
    by_cases h1 : c = CR <;> by_cases h2 : c = LF <;> by_cases h3 : c = EQ <;>
      simp_all [CR_ne_LF, CR_ne_EQ, LF_ne_EQ, EQ_ne_CR, EQ_ne_LF, LF_ne_CR]
  | _ :: _ :: _ => simp at h

theorem epilogue_eq (l out : List UInt8) (h : l.length ≤ 2) :
    epilogue l out = some (run .none l out) := by
  match l with
  | [] => simp [epilogue, epilogue.fin]
  | [c] => simp only [epilogue]; simp [fin_eq]
  | [c, d] =>
    simp only [epilogue, List.length_cons, List.length_nil]
    by_cases h1 : c = CR
    · by_cases h2 : d = LF
      · simp [h1, h2, run, step, stepNone, CR_ne_LF]
      · simp [h1, h2, run, step, stepNone, CR_ne_LF, fin_eq]
    · by_cases h2 : c = LF
      · simp [h2, LF_ne_CR, fin_eq, run, step, stepNone]
      · by_cases h3 : c = EQ
        · by_cases h4 : d = CR
          · simp [h3, h4, EQ_ne_CR, EQ_ne_LF, fin_eq, run, step, stepNone, stepEq]
          · simp [h3, h4, EQ_ne_CR, EQ_ne_LF, fin_eq, run, step, stepNone, stepEq]
        · simp [h1, h2, h3, fin_eq, run, step, stepNone]
  | _ :: _ :: _ :: _ => simp at h

/-- A CR met in state `cr` acts as in state `none`; and for a byte that is not LF state `cr` equals
state `none`. -/
theorem run_cr_of_ne {b : UInt8} (h : b ≠ LF) (l out) : run .cr (b :: l) out = run .none (b :: l) out := by
  simp [run, step, h]

theorem run_crlf_of_ne {b : UInt8} (h : b ≠ DOT) (h' : b ≠ EQ) (l out) :
    run .crlf (b :: l) out = run .none (b :: l) out := by simp [run, step, h, h']

theorem run_crlfdt_of_ne {b : UInt8} (h : b ≠ CR) (h' : b ≠ EQ) (l out) :
    run .crlfdt (b :: l) out = run .none (b :: l) out := by simp [run, step, h, h']

theorem run_crlfdtcr_of_ne {b : UInt8} (h : b ≠ LF) (l out) :
    run .crlfdtcr (b :: l) out = run .none (b :: l) out := by simp [run, step, h]

theorem run_none_cr_of_ne {b : UInt8} (h : b ≠ LF) (l out) :
    run .none (CR :: b :: l) out = run .none (b :: l) out := by
  rw [run]; simp [step, stepNone, run_cr_of_ne h]

theorem run_none_lf (l out) : run .none (LF :: l) out = run .none l out := by
  rw [run]; simp [step, stepNone, LF_ne_CR]

theorem run_none_crlf (l out) : run .none (CR :: LF :: l) out = run .crlf l out := by
  simp only [run, step, stepNone, if_true, List.append_nil]

theorem run_eq_byte (g : UInt8) (l out) : run .eq (g :: l) out =
    run .none (if g = CR then g :: l else l) (out ++ [g - 42 - 64]) := by
  rw [run]
  by_cases h : g = CR
  · subst h
    simp only [step, stepEq, if_true]
    conv => rhs; rw [run]
    simp [step, stepNone]
  · simp [step, stepEq, h]

theorem mainLoop_eq (fuel : Nat) : ∀ (l out : List UInt8), l.length < fuel →
    mainLoop fuel l out = some (run .none l out) := by
  induction fuel with
  | zero => intro l out h; omega
  | succ f ih =>
    intro l out hlen
    unfold mainLoop
    by_cases hgt : l.length > 2
    · simp only [hgt, if_true]
      match l, hgt with
      | c :: d :: e :: l, _ =>
        simp only [List.length_cons] at hlen
        simp only [List.getElem?_cons_zero, List.getElem?_cons_succ, bind, Option.bind, pure,
          List.drop_succ_cons, List.drop_zero]
        by_cases h1 : c = CR
        · subst h1; simp only [if_true]
          by_cases h2 : d = LF
          · subst h2; simp only [if_true]
            rw [run_none_crlf]
            by_cases h3 : e = DOT
            · subst h3; simp only [if_true]
              rw [run]; simp only [step, if_true, List.append_nil]
              match l with
              | [] => simp
              | g :: l =>
                simp only [List.length_cons] at hlen
                simp only [reduceCtorEq, if_false, List.getElem?_cons_zero, List.drop_succ_cons, List.drop_zero]
                by_cases h4 : g = CR
                · subst h4; simp only [if_true]
                  rw [run]; simp only [step, if_true, List.append_nil]
                  match l with
                  | [] => simp
                  | k :: l =>
                    simp only [List.length_cons] at hlen
                    simp only [reduceCtorEq, if_false, List.getElem?_cons_zero, List.drop_succ_cons, List.drop_zero]
                    by_cases h5 : k = LF
                    · subst h5; simp [run, step]
                    · simp only [h5, if_false]; rw [run_crlfdtcr_of_ne h5]
                      exact ih _ _ (by simp; omega)
                · simp only [h4, if_false]
                  by_cases h5 : g = EQ
                  · subst h5; simp only [if_true]
                    rw [run]; simp only [step, EQ_ne_CR, if_true, if_false, List.append_nil]
                    match l with
                    | [] => simp
                    | k :: l =>
                      simp only [List.length_cons] at hlen
                      simp only [reduceCtorEq, if_false, List.getElem?_cons_zero, List.drop_succ_cons, List.drop_zero]
                      by_cases h6 : k = LY
                      · subst h6; simp [run, step]
                      · simp only [h6, if_false]
                        rw [ih _ _ (by split <;> (try simp only [List.length_cons]) <;> omega), ← run_eq_byte]
                        simp [run, step, h6]
                  · simp only [h5, if_false]; rw [run_crlfdt_of_ne h4 h5]
                    exact ih _ _ (by simp; omega)
            · simp only [h3, if_false]
              by_cases h4 : e = EQ
              · subst h4; simp only [if_true]
                rw [run]; simp only [step, EQ_ne_DOT, if_true, if_false, List.append_nil]
                match l with
                | [] => simp
                | k :: l =>
                  simp only [List.length_cons] at hlen
                  simp only [reduceCtorEq, if_false, List.getElem?_cons_zero, List.drop_succ_cons, List.drop_zero]
                  by_cases h6 : k = LY
                  · subst h6; simp [run, step]
                  · simp only [h6, if_false]
                    rw [ih _ _ (by split <;> (try simp only [List.length_cons]) <;> omega), ← run_eq_byte]
                    simp [run, step, h6]
              · simp only [h4, if_false]; rw [run_crlf_of_ne h3 h4]
                rw [ih _ _ (by simp; omega), run_none_lf]
          · simp only [h2, if_false]; rw [ih _ _ (by simp; omega), run_none_cr_of_ne h2]
        · simp only [h1, if_false]
          by_cases h2 : c = LF
          · subst h2; simp only [if_true]; rw [ih _ _ (by simp; omega), run_none_lf]
          · simp only [h2, if_false]
            by_cases h3 : c = EQ
            · subst h3; simp only [if_true]
              have : run .none (EQ :: d :: e :: l) out = run .eq (d :: e :: l) out := by
                rw [run]; simp [step, stepNone, EQ_ne_CR, EQ_ne_LF]
              rw [this, run_eq_byte]
              by_cases h4 : d = CR
              · subst h4; simp; exact ih _ _ (by simp; omega)
              · simp [h4]; exact ih _ _ (by simp; omega)
            · simp only [h3, if_false]
              rw [ih _ _ (by simp; omega)]
              conv => rhs; rw [run]
              simp [step, stepNone, h1, h2, h3]
    · simp only [hgt, if_false]
      exact epilogue_eq l out (by omega)

theorem body_eq (l out : List UInt8) : body l out = some (run .none l out) :=
  mainLoop_eq _ _ _ (by omega)

theorem caseCrlfDtCr_eq (c : UInt8) (l out) :
    caseCrlfDtCr (c :: l) out = some (run .crlfdtcr (c :: l) out) := by
  simp only [caseCrlfDtCr, List.getElem?_cons_zero, bind, Option.bind, List.drop_succ_cons, List.drop_zero, pure]
  by_cases h : c = LF
  · subst h; simp [run, step]
  · simp only [h, if_false]; rw [run_crlfdtcr_of_ne h]; exact body_eq _ _

/-- Rank used to bound the jumps: `crlfeq` jumps to `eq` without consuming. -/
def rank : St → Nat
  | .crlfeq => 1
  | _ => 0

theorem switch_eq (fuel : Nat) : ∀ (s : St) (c : UInt8) (l out : List UInt8),
    2 * (l.length + 1) + rank s < fuel → switch fuel s (c :: l) out = some (run s (c :: l) out) := by
  induction fuel with
  | zero => intro s c l out h; omega
  | succ f ih =>
    intro s c l out hf
    unfold switch
    cases s <;>
      simp only [List.getElem?_cons_zero, bind, Option.bind, List.drop_succ_cons, List.drop_zero, pure,
        rank] at *
    case none => exact body_eq _ _
    case crlfdtcr => exact caseCrlfDtCr_eq _ _ _
    case crlfeq =>
      by_cases h : c = LY
      · subst h; simp [run, step]
      · simp only [h, if_false]
        rw [ih _ _ _ _ (by simp [rank]; omega)]
        simp [run, step, h]
    case eq =>
      by_cases h : c = CR
      · subst h
        simp only [ne_eq, not_true_eq_false, if_false]
        rw [run]; simp only [step, stepEq, if_true]
        match l with
        | [] => simp
        | d :: l => simp only [reduceCtorEq, if_false]; exact ih _ _ _ _ (by simp [rank] at *; omega)
      · simp only [ne_eq, h, not_false_eq_true, if_true]
        rw [run_eq_byte]; simp [h, body_eq]
    case cr =>
      by_cases h : c = LF
      · subst h
        simp only [ne_eq, not_true_eq_false, if_false]
        rw [run]; simp only [step, if_true, List.append_nil]
        match l with
        | [] => simp
        | d :: l => simp only [reduceCtorEq, if_false]; exact ih _ _ _ _ (by simp [rank] at *; omega)
      · simp only [ne_eq, h, not_false_eq_true, if_true]
        rw [run_cr_of_ne h, body_eq]
    case crlf =>
      by_cases h : c = DOT
      · subst h
        simp only [if_true]
        rw [run]; simp only [step, if_true, List.append_nil]
        match l with
        | [] => simp
        | d :: l => simp only [reduceCtorEq, if_false]; exact ih _ _ _ _ (by simp [rank] at *; omega)
      · by_cases h' : c = EQ
        · subst h'
          simp only [EQ_ne_DOT, if_true, if_false]
          rw [run]; simp only [step, EQ_ne_DOT, if_true, if_false, List.append_nil]
          match l with
          | [] => simp
          | d :: l => simp only [reduceCtorEq, if_false]; exact ih _ _ _ _ (by simp [rank] at *; omega)
        · simp only [h, h', if_false]; rw [run_crlf_of_ne h h', body_eq]
    case crlfdt =>
      by_cases h : c = CR
      · subst h
        simp only [if_true]
        rw [run]; simp only [step, if_true, List.append_nil]
        match l with
        | [] => simp
        | d :: l => simp only [reduceCtorEq, if_false]; exact caseCrlfDtCr_eq _ _ _
      · by_cases h' : c = EQ
        · subst h'
          simp only [EQ_ne_CR, if_true, if_false]
          rw [run]; simp only [step, EQ_ne_CR, if_true, if_false, List.append_nil]
          match l with
          | [] => simp
          | d :: l => simp only [reduceCtorEq, if_false]; exact ih _ _ _ _ (by simp [rank] at *; omega)
        · simp only [h, h', if_false]; rw [run_crlfdt_of_ne h h', body_eq]

/-- The decoder equals the byte automaton. -/
theorem decodeScalar_eq (s : St) (l : List UInt8) : decodeScalar s l = some (run s l []) := by
  unfold decodeScalar
  match l with
  | [] => simp
  | c :: l =>
    simp only [List.length_cons, show ¬ (l.length + 1 < 1) by omega, if_false]
    exact switch_eq _ _ _ _ _ (by cases s <;> simp [rank] <;> omega)

theorem run_out (l : List UInt8) : ∀ (s : St) (out : List UInt8),
    run s l out = { run s l [] with out := out ++ (run s l []).out } := by
  induction l with
  | nil => intro s out; simp
  | cons b l ih =>
    intro s out
    rw [run, run]
    rcases h : step s b with ⟨o, s' | ⟨code, s'⟩⟩
    · simp only []
      rw [ih s' (out ++ o), ih s' ([] ++ o)]; simp
    · simp

theorem run_append (l l' : List UInt8) : ∀ (s : St) (out : List UInt8),
    run s (l ++ l') out =
      if (run s l out).ret = 0 then run (run s l out).st l' (run s l out).out
      else { run s l out with rest := (run s l out).rest ++ l' } := by
  induction l with
  | nil => intro s out; simp
  | cons b l ih =>
    intro s out
    rw [List.cons_append, run, run]
    rcases h : step s b with ⟨o, s' | ⟨code, s'⟩⟩
    · simp only []; exact ih _ _
    · have : code ≠ 0 := by
        revert h
        cases s <;> simp only [step, stepNone, stepEq] <;> (repeat' split) <;> simp <;> omega
      simp [this]

theorem run_rest (l : List UInt8) : ∀ (s : St) (out : List UInt8), (run s l out).ret = 0 →
    (run s l out).rest = [] := by
  induction l with
  | nil => intro s out h; simp
  | cons b l ih =>
    intro s out
    rw [run]
    rcases h : step s b with ⟨o, s' | ⟨code, s'⟩⟩
    · simp only []; exact ih _ _
    · intro hc
      exfalso
      revert h hc
      cases s <;> simp only [step, stepNone, stepEq] <;> (repeat' split) <;> simp <;> omega

theorem decodeChunks_eq (cs : List (List UInt8)) : ∀ (s : St) (out : List UInt8),
    decodeChunks s cs out = some (run s cs.flatten out) := by
  induction cs with
  | nil => intro s out; simp [decodeChunks]
  | cons c cs ih =>
    intro s out
    simp only [decodeChunks, decodeScalar_eq, bind, Option.bind, List.flatten_cons, pure]
    rw [run_append]
    rw [run_out c s out]
    by_cases h : (run s c []).ret = 0
    · simp only [h, if_true]; exact ih _ _
    · simp [h]

/-! ### Encoder -/

/-- States in which the decoder is "inside" or "at the start of" a line of encoder output. -/
def lineState (lnsz : Nat) (s : St) : Prop := if lnsz = 0 then s = .crlf else s = .none

theorem run_esc (ch : UInt8) (h : mustEscape ch = true) (l out) (s : St) (hs : s = .crlf ∨ s = .none) :
    run s (EQ :: (ch + 64) :: l) out = run .none l (out ++ [ch - 42]) := by
  simp only [mustEscape, Bool.or_eq_true, beq_iff_eq] at h
  rcases h with ((((h | h) | h) | h) | h) | h <;> subst h <;> rcases hs with rfl | rfl <;>
    simp [run, step, stepNone, stepEq, EQ, CR, LF, DOT, LY] <;> rfl

theorem run_plain (ch : UInt8) (h : mustEscape ch = false) (l out) :
    run .none (ch :: l) out = run .none l (out ++ [ch - 42]) := by
  simp only [mustEscape, Bool.or_eq_false_iff, beq_eq_false_iff_ne] at h
  have h1 : ch ≠ CR := h.1.1.1.2
  have h2 : ch ≠ LF := h.1.1.1.1.2
  have h3 : ch ≠ EQ := h.1.1.2
  rw [run]; simp [step, stepNone, h1, h2, h3]

theorem run_plain_crlf (ch : UInt8) (h : mustEscape ch = false) (hd : ch ≠ DOT) (l out) :
    run .crlf (ch :: l) out = run .none l (out ++ [ch - 42]) := by
  have h3 : ch ≠ EQ := by
    simp only [mustEscape, Bool.or_eq_false_iff, beq_eq_false_iff_ne] at h
    exact h.1.1.2
  rw [run_crlf_of_ne hd h3, run_plain ch h]

theorem run_dotdot (l out) : run .crlf (DOT :: DOT :: l) out = run .none l (out ++ [DOT - 42]) := by
  simp [run, step, stepNone, EQ, CR, LF, DOT]

theorem run_encode (data : List UInt8) : ∀ (lnsz : Nat) (s : St) (out tail : List UInt8),
    lineState lnsz s → data ≠ [] →
    run s (encodeBody lnsz data ++ tail) out = run .crlf tail (out ++ data) := by
  induction data with
  | nil => intro _ _ _ _ _ h; exact absurd rfl h
  | cons b data ih =>
    intro lnsz s out tail hs _
    have key : ∀ (eol : Bool) (n : Nat) (o : List UInt8), (eol = false → n ≠ 0 ∧ data ≠ []) →
        run .none ((if eol then [CR, LF] else []) ++ encodeBody (if eol then 0 else n) data ++ tail) o
          = run .crlf tail (o ++ data) := by
      intro eol n o hn
      cases eol with
      | true =>
        simp only [if_true, List.cons_append, List.nil_append]
        rw [run_none_crlf]
        by_cases hd : data = []
        · subst hd; simp [encodeBody]
        · exact ih 0 .crlf o tail (by simp [lineState]) hd
      | false =>
        obtain ⟨h1, h2⟩ := hn rfl
        simp only [Bool.false_eq_true, if_false, List.nil_append]
        exact ih n .none o tail (by simp [lineState, h1]) h2
    have hsub : (b + 42 : UInt8) - 42 = b := by simp
    have hs' : s = .crlf ∨ s = .none := by
      unfold lineState at hs; split at hs <;> simp [hs]
    unfold encodeBody
    simp only
    cases hesc : mustEscape (b + 42) with
    | true =>
      simp only [if_true, List.singleton_append, List.cons_append, List.append_assoc]
      simp only [show (lnsz + 1 == 0) = false by simp, Bool.and_false, Bool.false_eq_true, if_false,
        List.nil_append, List.cons_append]
      rw [run_esc _ hesc _ _ _ hs', hsub, ← List.append_assoc]
      rw [key _ _ _ (by intro h; constructor; · omega
                        · intro hd; subst hd; simp at h)]
      simp
    | false =>
      simp only [Bool.false_eq_true, if_false, List.nil_append, List.append_assoc]
      by_cases hdot : (b + 42 == DOT && lnsz == 0) = true
      · simp only [hdot, if_true, List.cons_append, List.nil_append]
        simp only [Bool.and_eq_true, beq_iff_eq] at hdot
        obtain ⟨h1, h2⟩ := hdot
        subst h2
        have hs0 : s = .crlf := by simpa [lineState] using hs
        rw [hs0, h1, run_dotdot, ← h1, hsub, ← List.append_assoc]
        rw [key _ _ _ (by intro h; constructor; · omega
                          · intro hd; subst hd; simp at h)]
        simp
      · simp only [hdot, if_false, List.nil_append, List.cons_append, Bool.false_eq_true]
        have : run s ((b + 42) :: ((if decide (lnsz + 1 ≥ 128) || data.isEmpty then [CR, LF] else []) ++
            (encodeBody (if decide (lnsz + 1 ≥ 128) || data.isEmpty then 0 else lnsz + 1) data ++ tail))) out =
            run .none ((if decide (lnsz + 1 ≥ 128) || data.isEmpty then [CR, LF] else []) ++
            (encodeBody (if decide (lnsz + 1 ≥ 128) || data.isEmpty then 0 else lnsz + 1) data ++ tail)) (out ++ [b]) := by
          by_cases hz : lnsz = 0
          · have hs0 : s = .crlf := by simpa [lineState, hz] using hs
            have hd : b + 42 ≠ DOT := by
              intro h; apply hdot; simp [h, hz]
            rw [hs0, run_plain_crlf _ hesc hd, hsub]
          · have hs0 : s = .none := by simpa [lineState, hz] using hs
            rw [hs0, run_plain _ hesc, hsub]
        rw [this, ← List.append_assoc]
        rw [key _ _ _ (by intro h; constructor; · omega
                          · intro hd; subst hd; simp at h)]
        simp

end Verif.YEnc
