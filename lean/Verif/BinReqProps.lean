import Verif.BinReq
/-! C118: requests of the binary protocol. -/
namespace Verif.BinReq
open CStr
open Text (I32)

/-! ### Specification -/

/-- A string as C knows it: without NUL. -/
def Plain (s : Bytes) : Prop := (0 : UInt8) ∉ s

/-- Name and password which fit into the request. -/
structure Fits (cfg : Cfg) : Prop where
  user : Plain cfg.user
  pass : Plain cfg.pass
  userLen : cfg.user.length ≤ 31
  passLen : cfg.pass.length ≤ 31

/-- The range of `int`. -/
def IsInt (i : Int) : Prop := -(2 ^ 31) ≤ i ∧ i < 2 ^ 31

/-- The bytes `h` after the signature carry the name and the password of the configuration, as C strings in their fields. -/
def Knows (cfg : Cfg) (h : Bytes) : Prop :=
  (cfg.user = [] ∨ cfg.user ++ [0] <+: h.drop 8) ∧ cfg.pass ++ [0] <+: h.drop 40

/-- The length of the data behind the struct, as announced in the struct. -/
def trailing (type : Nat) (s : Bytes) : Nat :=
  match type with
  | 1 => (u32 (s.drop 1632)).toNat
  | 6 => (u32 (s.drop 104)).toNat
  | 12 => (u32 (s.drop 80)).toNat
  | _ => 0

/-- The whole request has arrived. -/
def Complete (s : Bytes) : Prop :=
  ∃ n, size (u32 (s.drop 8)).toNat = some n ∧ (u32 (s.drop 4)).toNat = n ∧ n + trailing (u32 (s.drop 8)).toNat s ≤ s.length

/-! ### Bytes -/

theorem be_length (w : I32) : (be w).length = 4 := rfl
theorem beI_length (i : Int) : (beI i).length = 4 := rfl
theorem beB_length (b : Bool) : (beB b).length = 4 := rfl

theorem u32_be (w : I32) (t : Bytes) : u32 (be w ++ t) = w := by
  unfold be u32
  simp only [List.cons_append]
  apply BitVec.eq_of_toNat_eq
  have h := w.isLt
  simp only [BitVec.toNat_ofNat, UInt8.toNat_ofNat']
  omega

theorem u32_beI (i : Int) (h : IsInt i) (t : Bytes) : (u32 (beI i ++ t)).toInt = i := by
  rw [beI, u32_be, BitVec.toInt_ofInt]
  unfold IsInt at h
  rw [Int.bmod_eq_of_le]
  all_goals omega

theorem u32_beN (n : Nat) (h : n < 2 ^ 31) (t : Bytes) : (u32 (beI n ++ t)).toNat = n := by
  rw [beI, u32_be, BitVec.toNat_ofInt]
  omega

theorem u32_beB (b : Bool) (t : Bytes) : (u32 (beB b ++ t) != 0) = b := by
  rw [beB, u32_be]
  cases b <;> rfl

theorem drop_be (w : I32) (t : Bytes) : (be w ++ t).drop 4 = t := rfl
theorem drop_beI (i : Int) (t : Bytes) : (beI i ++ t).drop 4 = t := rfl
theorem drop_beB (b : Bool) (t : Bytes) : (beB b ++ t).drop 4 = t := rfl

theorem drop_len {n : Nat} {a : Bytes} (t : Bytes) (h : a.length = n) : (a ++ t).drop n = t := List.drop_left' h

theorem recv_len {n : Nat} {a : Bytes} (t : Bytes) (h : a.length = n) : recv n (a ++ t) = some (a, t) := by
  unfold recv
  rw [if_pos (by rw [List.length_append]; omega), List.take_left' h, List.drop_left' h]

theorem field_length (n : Nat) (s : Bytes) (h : 1 ≤ n) : (field n s).length = n := by
  unfold field
  rw [List.length_append, List.length_take, List.length_replicate]
  omega

theorem blank_length (junk : Nat → UInt8) (n : Nat) (h : 2 ≤ n) : (blank junk n).length = n := by
  unfold blank
  rw [List.length_cons, List.length_append, List.length_map, List.length_range, List.length_singleton]
  omega

theorem cstr_append (s t : Bytes) (h : Plain s) : cstr (s ++ 0 :: t) = s := by
  induction s with
  | nil => simp [cstr]
  | cons b s ih =>
    unfold Plain at h ih
    rw [List.mem_cons] at h
    rw [List.cons_append, cstr, if_neg (fun e => h (.inl e.symm)), ih (fun e => h (.inr e))]

theorem str_append (s t : Bytes) (h : Plain s) : str (s ++ 0 :: t) = some s := by
  unfold str
  rw [if_pos (by simp), cstr_append s t h]

theorem str_none (s : Bytes) (h : Plain s) : str s = none := by
  unfold str
  rw [if_neg (by simpa [Plain] using h)]

theorem plain_take {s : Bytes} (n : Nat) (h : Plain s) : Plain (s.take n) := fun e => h (List.mem_of_mem_take e)

theorem field_eq (n : Nat) (s : Bytes) (hn : 1 ≤ n) : ∃ z, field n s = s.take (n - 1) ++ 0 :: z := by
  unfold field
  refine ⟨List.replicate (n - min s.length (n - 1) - 1) 0, ?_⟩
  have h : n - min s.length (n - 1) = (n - min s.length (n - 1) - 1) + 1 := by omega
  rw [h, List.replicate_succ]
  simp

theorem str_field (n : Nat) (s t : Bytes) (hn : 1 ≤ n) (h : Plain s) : str (field n s ++ t) = some (s.take (n - 1)) := by
  obtain ⟨z, hz⟩ := field_eq n s hn
  rw [hz, List.append_assoc, List.cons_append, str_append _ _ (plain_take _ h)]

theorem str_blank (junk : Nat → UInt8) (n : Nat) (t : Bytes) : str (blank junk n ++ t) = some [] := by
  have := str_append [] ((List.range (n - 2)).map junk ++ [0] ++ t) (by simp [Plain])
  simpa [blank] using this

/-! ### Name and password -/

theorem strEq_iff (b s : Bytes) (hs : Plain s) : strEq b s = some true ↔ s ++ [0] <+: b := by
  induction s generalizing b with
  | nil => cases b with
    | nil => simp [strEq]
    | cons x b =>
      rw [strEq, List.nil_append, List.cons_prefix_cons]
      constructor
      · intro h; exact ⟨by simpa using (beq_iff_eq.mp (Option.some.inj h)).symm, List.nil_prefix⟩
      · intro h; rw [← h.1]; rfl
  | cons c s ih => cases b with
    | nil => simp [strEq]
    | cons x b =>
      have hs' : Plain s := fun e => hs (List.mem_cons_of_mem _ e)
      rw [strEq, List.cons_append, List.cons_prefix_cons]
      by_cases h : x = c
      · subst h
        simp [ih b hs']
      · have hx : (x == c) = false := by simpa using h
        rw [hx]
        constructor
        · intro q; cases q
        · intro q; exact absurd q.1.symm h

theorem strEq_some (b s : Bytes) (h : s.length < b.length) : strEq b s ≠ none := by
  induction s generalizing b with
  | nil => cases b with
    | nil => simp at h
    | cons x b => simp [strEq]
  | cons c s ih => cases b with
    | nil => simp at h
    | cons x b =>
      rw [strEq]
      split
      · exact ih b (by simpa using h)
      · simp

/-- The check of name and password is passed exactly by requests which carry both, whatever else they contain. -/
theorem auth_iff (cfg : Cfg) (hu : Plain cfg.user) (hp : Plain cfg.pass) (h : Bytes) : auth cfg h = some true ↔ Knows cfg h := by
  unfold auth Knows
  by_cases e : cfg.user = []
  · rw [if_pos e]
    dsimp only
    rw [strEq_iff _ _ hp]
    simp [e]
  · rw [if_neg e]
    have h1 := strEq_iff (h.drop 8) cfg.user hu
    generalize strEq (h.drop 8) cfg.user = r at h1 ⊢
    have h2 := strEq_iff (h.drop 40) cfg.pass hp
    cases r with
    | none =>
      have : ¬ cfg.user ++ [0] <+: h.drop 8 := fun q => by cases h1.mpr q
      simp [e, this]
    | some r => cases r with
      | false =>
        have : ¬ cfg.user ++ [0] <+: h.drop 8 := fun q => by cases h1.mpr q
        simp [e, this]
      | true =>
        dsimp only
        rw [h2]
        simp [h1.mp rfl]

/-- With a name of up to 63 and a password of up to 31 characters the check never reads outside of the request. -/
theorem auth_safe (cfg : Cfg) (hu : cfg.user.length ≤ 63) (hp : cfg.pass.length ≤ 31) (h : Bytes) (hh : h.length = 72) : auth cfg h ≠ none := by
  unfold auth
  have h1 : strEq (h.drop 8) cfg.user ≠ none := strEq_some _ _ (by rw [List.length_drop]; omega)
  have h2 : strEq (h.drop 40) cfg.pass ≠ none := strEq_some _ _ (by rw [List.length_drop]; omega)
  generalize hr : (if cfg.user = [] then some true else strEq (h.drop 8) cfg.user) = r
  cases r with
  | none => split at hr <;> simp_all
  | some r => cases r with
    | false => simp
    | true => exact h2

theorem recv_some {n : Nat} {s a t : Bytes} (h : recv n s = some (a, t)) : s = a ++ t ∧ a.length = n := by
  unfold recv at h
  split at h
  · cases h
    exact ⟨(List.take_append_drop n s).symm, by rw [List.length_take]; omega⟩
  · cases h

theorem u32_drop_take (s : Bytes) (o k : Nat) (h : o + 4 ≤ k) : u32 ((s.take k).drop o) = u32 (s.drop o) := by
  have e : (s.take k).drop o = (s.drop o).take (k - o) := by rw [List.drop_take]
  rw [e]
  obtain ⟨m, hm⟩ : ∃ m, k - o = m + 4 := ⟨k - o - 4, by omega⟩
  rw [hm]
  generalize s.drop o = l
  match l with
  | [] => rfl
  | [_] => rfl
  | [_, _] => rfl
  | [_, _, _] => rfl
  | a :: b :: c :: d :: t => simp [u32]

/-- What `serve` does, in one step. -/
theorem serve_cases (cfg : Cfg) (s : Bytes) :
    serve cfg s = .other ∨ serve cfg s = .closed ∨
    (∃ h t, s = be signature ++ (h ++ t) ∧ h.length = 72 ∧ auth cfg h = none ∧ serve cfg s = .ub) ∨
    (∃ h t, s = be signature ++ (h ++ t) ∧ h.length = 72 ∧ auth cfg h = some true ∧ serve cfg s = dispatch h t) := by
  unfold serve
  cases h4 : recv 4 s with
  | none => exact .inl rfl
  | some r =>
    obtain ⟨sig, s1⟩ := r
    dsimp only
    by_cases hs : u32 sig ≠ signature
    · rw [if_pos hs]; exact .inl rfl
    · rw [if_neg hs]
      cases h72 : recv 72 s1 with
      | none => exact .inr (.inl rfl)
      | some r =>
        obtain ⟨h, s2⟩ := r
        dsimp only
        obtain ⟨e1, l1⟩ := recv_some h4
        obtain ⟨e2, l2⟩ := recv_some h72
        have e3 : sig = be signature := by
          have hs : u32 sig = signature := Classical.byContradiction hs
          match sig, l1 with
          | [a, b, c, d], _ =>
            unfold u32 at hs
            have := congrArg BitVec.toNat hs
            rw [BitVec.toNat_ofNat] at this
            have ha := a.toNat_lt; have hb := b.toNat_lt; have hc := c.toNat_lt; have hd := d.toNat_lt
            have hv : signature.toNat = 0x6E7A6231 := rfl
            rw [hv] at this
            have h1 : a = 0x6E := UInt8.toNat_inj.mp (by simp; omega)
            have h2 : b = 0x7A := UInt8.toNat_inj.mp (by simp; omega)
            have h3 : c = 0x62 := UInt8.toNat_inj.mp (by simp; omega)
            have h5 : d = 0x31 := UInt8.toNat_inj.mp (by simp; omega)
            rw [h1, h2, h3, h5]
            rfl
        subst e2 e3 e1
        cases ha : auth cfg h with
        | none => exact .inr (.inr (.inl ⟨h, s2, rfl, l2, ha, rfl⟩))
        | some b => cases b with
          | false => exact .inr (.inl rfl)
          | true => exact .inr (.inr (.inr ⟨h, s2, rfl, l2, ha, rfl⟩))

/-- Whatever arrives: a command is executed, or a failure answered, only for a request with the name and the password of the configuration. -/
theorem authorised (cfg : Cfg) (hu : Plain cfg.user) (hp : Plain cfg.pass) (s : Bytes) (h : serve cfg s = .refused ∨ ∃ c, serve cfg s = .run c) :
    ∃ h t, s = be signature ++ (h ++ t) ∧ h.length = 72 ∧ Knows cfg h := by
  rcases serve_cases cfg s with e | e | ⟨h', t, _, _, _, e⟩ | ⟨h', t, e1, l, a, _⟩
  · rw [e] at h; rcases h with h | ⟨c, h⟩ <;> cases h
  · rw [e] at h; rcases h with h | ⟨c, h⟩ <;> cases h
  · rw [e] at h; rcases h with h | ⟨c, h⟩ <;> cases h
  · exact ⟨h', t, e1, l, (auth_iff cfg hu hp h').mp a⟩

/-- Without them nothing happens and the connection is closed, also with any contents of the rest. -/
theorem unauthorised (cfg : Cfg) (hf : Fits cfg) (h t : Bytes) (hh : h.length = 72) (hk : ¬ Knows cfg h) :
    serve cfg (be signature ++ (h ++ t)) = .closed := by
  have ha : auth cfg h = some false := by
    have h1 := auth_safe cfg (by have := hf.userLen; omega) hf.passLen h hh
    have h2 := mt (auth_iff cfg hf.user hf.pass h).mp hk
    generalize auth cfg h = r at h1 h2
    cases r with
    | none => exact absurd rfl h1
    | some r => cases r with
      | false => rfl
      | true => exact absurd rfl h2
  unfold serve
  rw [recv_len _ (be_length _)]
  dsimp only
  have : u32 (be signature) = signature := by rw [← List.append_nil (be signature), u32_be]
  rw [if_neg (fun q => q this), recv_len _ hh]
  dsimp only
  rw [ha]

example : Fits ⟨lit "nzbget", lit "tegbzn6789"⟩ ∧ ¬ Knows ⟨lit "nzbget", lit "tegbzn6789"⟩ (List.replicate 72 0) := by
  refine ⟨⟨by unfold Plain; decide, by unfold Plain; decide, by decide, by decide⟩, ?_⟩
  intro h
  exact absurd h.2 (by decide +kernel)

/-! ### Whole requests -/

theorem recv_le {n : Nat} {s : Bytes} (h : recv n s ≠ none) : n ≤ s.length := by
  unfold recv at h
  split at h
  · assumption
  · exact absurd rfl h

theorem size_ge {type n : Nat} (h : size type = some n) : 76 ≤ n := by
  unfold size at h
  split at h <;> first | (injection h; omega) | cases h

theorem len_toNat {w : I32} (h : ¬ w.toInt < 0) : w.toInt.toNat = w.toNat := by
  rw [BitVec.toInt_eq_toNat_cond] at h ⊢
  split at h <;> rename_i q
  · rw [if_pos q]; omega
  · omega

/-- The outcomes after which something was answered. -/
def Answered (o : Out) : Prop := o = .refused ∨ ∃ c, o = .run c

theorem download_needs (b s : Bytes) (h : Answered (download b s)) : (u32 (b.drop 1556)).toNat ≤ s.length := by
  unfold download at h
  simp only [List.drop_drop] at h
  by_cases hn : (u32 (b.drop 1556)).toInt < 0
  · rw [if_pos hn] at h
    rcases h with h | ⟨c, h⟩ <;> cases h
  · rw [if_neg hn] at h
    rw [← len_toNat hn]
    apply recv_le
    intro e
    rw [e] at h
    rcases h with h | ⟨c, h⟩ <;> cases h

theorem edit_needs (b s : Bytes) (h : Answered (edit b s)) : (u32 (b.drop 28)).toNat ≤ s.length := by
  unfold edit at h
  simp only [List.drop_drop] at h
  split at h
  · rcases h with h | ⟨c, h⟩ <;> cases h
  split at h
  · rcases h with h | ⟨c, h⟩ <;> cases h
  · apply recv_le
    intro e
    rw [e] at h
    rcases h with h | ⟨c, h⟩ <;> cases h

theorem writeLog_needs (b s : Bytes) (h : Answered (writeLog b s)) : (u32 (b.drop 4)).toNat ≤ s.length := by
  unfold writeLog at h
  dsimp only at h
  by_cases hn : (u32 (b.drop 4)).toInt < 0
  · rw [if_pos hn] at h
    rcases h with h | ⟨c, h⟩ <;> cases h
  · rw [if_neg hn] at h
    rw [← len_toNat hn]
    apply recv_le
    intro e
    rw [e] at h
    rcases h with h | ⟨c, h⟩ <;> cases h

theorem u32_append (a t : Bytes) (o : Nat) (h : o + 4 ≤ a.length) : u32 ((a ++ t).drop o) = u32 (a.drop o) := by
  have := u32_drop_take (a ++ t) o a.length h
  rw [List.take_left' rfl] at this
  exact this.symm

/-- Whatever arrives: a command is executed, or a failure answered, only when the whole request, of the right size for its kind, and all data announced in it have arrived. -/
theorem complete (cfg : Cfg) (s : Bytes) (h : Answered (serve cfg s)) : Complete s := by
  rcases serve_cases cfg s with e | e | ⟨h', t, _, _, _, e⟩ | ⟨hd, t, e1, l, a, e⟩
  · rw [e] at h; rcases h with h | ⟨c, h⟩ <;> cases h
  · rw [e] at h; rcases h with h | ⟨c, h⟩ <;> cases h
  · rw [e] at h; rcases h with h | ⟨c, h⟩ <;> cases h
  · rw [e] at h
    unfold dispatch at h
    have d4 : u32 (s.drop 4) = u32 hd := by
      rw [e1, drop_be, show hd ++ t = (hd ++ t).drop 0 from rfl, u32_append _ _ _ (by omega)]
      rfl
    have d8 : u32 (s.drop 8) = u32 (hd.drop 4) := by
      rw [e1, show (8 : Nat) = 4 + 4 from rfl, ← List.drop_drop, drop_be, u32_append _ _ _ (by omega)]
    unfold Complete
    rw [d4, d8]
    generalize u32 (hd.drop 4) = ty at h ⊢
    cases hz : size ty.toNat with
    | none =>
      rw [hz] at h
      rcases h with h | ⟨c, h⟩ <;> cases h
    | some n =>
      rw [hz] at h
      dsimp only at h
      by_cases hn : n ≠ (u32 hd).toNat
      · rw [if_pos hn] at h
        rcases h with h | ⟨c, h⟩ <;> cases h
      · rw [if_neg hn] at h
        have hn : n = (u32 hd).toNat := Classical.byContradiction hn
        cases hr : recv (n - 76) t with
        | none =>
          rw [hr] at h
          rcases h with h | ⟨c, h⟩ <;> cases h
        | some r =>
          obtain ⟨b, s'⟩ := r
          rw [hr] at h
          dsimp only at h
          obtain ⟨e2, l2⟩ := recv_some hr
          have hge := size_ge hz
          have hlen : s.length = n + s'.length := by
            rw [e1, e2]
            simp only [List.length_append, be_length]
            omega
          refine ⟨n, rfl, hn.symm, ?_⟩
          rw [hlen]
          apply Nat.add_le_add_left
          have hdrop : ∀ o, s.drop (76 + o) = (b ++ s').drop o := by
            intro o
            rw [e1, e2, show 76 + o = 4 + (72 + o) by omega, ← List.drop_drop, drop_be, ← List.drop_drop, drop_len _ l]
          unfold trailing
          generalize ty.toNat = k at h hz ⊢
          clear e hn d4 d8 a
          split
          · have hb : b.length = 1560 := by cases hz; exact l2
            rw [show (1632 : Nat) = 76 + 1556 from rfl, hdrop, u32_append _ _ _ (by omega)]
            exact download_needs b s' h
          · have hb : b.length = 32 := by cases hz; exact l2
            rw [show (104 : Nat) = 76 + 28 from rfl, hdrop, u32_append _ _ _ (by omega)]
            exact edit_needs b s' h
          · have hb : b.length = 8 := by cases hz; exact l2
            rw [show (80 : Nat) = 76 + 4 from rfl, hdrop, u32_append _ _ _ (by omega)]
            exact writeLog_needs b s' h
          · omega

theorem size_trailing {k n : Nat} (h : size k = some n) (s : Bytes) (m : Nat) (hm : n ≤ m) : trailing k (s.take m) = trailing k s := by
  unfold trailing
  split <;> (try rfl)
  all_goals (cases h; rw [u32_drop_take _ _ _ (by omega)])

/-- A request of which the last bytes are missing does nothing. -/
theorem truncated (cfg : Cfg) (s : Bytes) (n : Nat) (hn : size (u32 (s.drop 8)).toNat = some n) (hl : s.length = n + trailing (u32 (s.drop 8)).toNat s)
    (k : Nat) (hk : k < s.length) : ¬ Answered (serve cfg (s.take k)) := by
  intro h
  obtain ⟨n', h1, h2, h3⟩ := complete cfg _ h
  have hge := size_ge h1
  have hkl : (s.take k).length = k := by rw [List.length_take]; omega
  rw [hkl] at h3
  have hk76 : 76 ≤ k := by omega
  rw [u32_drop_take _ _ _ (by omega)] at h1 h3
  rw [hn] at h1
  cases h1
  rw [size_trailing hn _ _ (by omega)] at h3
  omega

/-! ### What the client sends is what the server does -/

theorem knows_base (cfg : Cfg) (hf : Fits cfg) (a b : I32) : Knows cfg (be a ++ (be b ++ (field 32 cfg.user ++ field 32 cfg.pass))) := by
  have h8 : (be a ++ (be b ++ (field 32 cfg.user ++ field 32 cfg.pass))).drop 8 = field 32 cfg.user ++ field 32 cfg.pass := rfl
  have h40 : (be a ++ (be b ++ (field 32 cfg.user ++ field 32 cfg.pass))).drop 40 = field 32 cfg.pass := by
    rw [show (40 : Nat) = 8 + 32 from rfl, ← List.drop_drop, h8, drop_len _ (field_length 32 _ (by omega))]
  unfold Knows
  rw [h8, h40]
  obtain ⟨z, hz⟩ := field_eq 32 cfg.user (by omega)
  obtain ⟨y, hy⟩ := field_eq 32 cfg.pass (by omega)
  have hu : cfg.user.take (32 - 1) = cfg.user := List.take_of_length_le hf.userLen
  have hp : cfg.pass.take (32 - 1) = cfg.pass := List.take_of_length_le hf.passLen
  rw [hu] at hz
  rw [hp] at hy
  refine ⟨.inr ⟨z ++ field 32 cfg.pass, ?_⟩, ⟨y, ?_⟩⟩
  · rw [hz]; simp
  · rw [hy]; simp

/-- The bytes after the signature. -/
def head (cfg : Cfg) (type n : Nat) : Bytes := be (BitVec.ofNat 32 n) ++ (be (BitVec.ofNat 32 type) ++ (field 32 cfg.user ++ field 32 cfg.pass))

theorem base_head (cfg : Cfg) (type n : Nat) (t : Bytes) : base cfg type n ++ t = be signature ++ (head cfg type n ++ t) := by
  unfold base head
  simp only [List.append_assoc]

theorem head_length (cfg : Cfg) (type n : Nat) : (head cfg type n).length = 72 := by
  unfold head
  simp only [List.length_append, be_length, field_length 32 _ (by omega : 1 ≤ 32)]

theorem head_type (cfg : Cfg) (type n : Nat) (h : type < 2 ^ 32) : (u32 ((head cfg type n).drop 4)).toNat = type := by
  unfold head
  rw [drop_be, u32_be, BitVec.toNat_ofNat, Nat.mod_eq_of_lt h]

theorem head_size (cfg : Cfg) (type n : Nat) (h : n < 2 ^ 32) : (u32 (head cfg type n)).toNat = n := by
  unfold head
  rw [u32_be, BitVec.toNat_ofNat, Nat.mod_eq_of_lt h]

theorem size_lt {type n : Nat} (h : size type = some n) : n ≤ 1636 ∧ type ≤ 14 := by
  unfold size at h
  split at h <;> first | (injection h; omega) | cases h

theorem u32_sig : u32 (be signature) = signature := by rw [← List.append_nil (be signature), u32_be]

theorem serve_head (cfg : Cfg) (h t : Bytes) (hl : h.length = 72) (ha : auth cfg h = some true) : serve cfg (be signature ++ (h ++ t)) = dispatch h t := by
  unfold serve
  rw [recv_len _ (be_length _)]
  dsimp only
  rw [if_neg (fun q => q u32_sig), recv_len _ hl]
  dsimp only
  rw [ha]

theorem dispatch_eq (h : Bytes) (type n : Nat) (hs : size type = some n) (body data : Bytes) (hb : body.length = n - 76)
    (h1 : (u32 (h.drop 4)).toNat = type) (h3 : (u32 h).toNat = n) : dispatch h (body ++ data) = command type body data := by
  have hr := recv_len (n := n - 76) data hb
  unfold dispatch
  rw [h1, h3, hs]
  show (if n ≠ n then Out.closed else _) = _
  rw [if_neg (fun q => q rfl)]
  show (match recv (n - 76) (body ++ data) with | none => Out.closed | some (b, s') => command type b s') = _
  rw [hr]

theorem serve_base (cfg : Cfg) (hf : Fits cfg) (type n : Nat) (hs : size type = some n) (body data : Bytes) (hb : body.length = n - 76) :
    serve cfg (base cfg type n ++ (body ++ data)) = command type body data := by
  have hn := size_lt hs
  rw [base_head, serve_head cfg _ _ (head_length cfg type n) ((auth_iff cfg hf.user hf.pass _).mpr (knows_base cfg hf _ _))]
  exact dispatch_eq _ _ _ hs _ _ hb (head_type _ _ _ (Nat.lt_of_le_of_lt hn.2 (by decide))) (head_size _ _ _ (Nat.lt_of_le_of_lt hn.1 (by decide)))

theorem sent_pause (cfg : Cfg) (hf : Fits cfg) (pause : Bool) (action : Nat) (ha : action < 2 ^ 32) :
    serve cfg (sendPause cfg pause action) = .run (.pause action pause) := by
  have h := serve_base cfg hf 2 84 rfl (beB pause ++ be (BitVec.ofNat 32 action)) [] rfl
  rw [List.append_nil] at h
  unfold sendPause
  rw [h]
  show Out.run (.pause (u32 ((beB pause ++ be (BitVec.ofNat 32 action)).drop 4)).toNat (u32 (beB pause ++ be (BitVec.ofNat 32 action)) != 0)) = _
  rw [drop_beB, u32_beB, ← List.append_nil (be _), u32_be, BitVec.toNat_ofNat]
  rw [Nat.mod_eq_of_lt ha]

theorem sent_rate (cfg : Cfg) (hf : Fits cfg) (rate : Int) (hr : IsInt rate) : serve cfg (sendRate cfg rate) = .run (.rate rate) := by
  have h := serve_base cfg hf 4 80 rfl (beI rate) [] rfl
  rw [List.append_nil] at h
  unfold sendRate
  rw [h]
  show Out.run (.rate (u32 (beI rate)).toInt) = _
  rw [← List.append_nil (beI _), u32_beI _ hr]

theorem sent_log (cfg : Cfg) (hf : Fits cfg) (lines : Int) (hr : IsInt lines) : serve cfg (sendLog cfg lines) = .run (.log lines 0) := by
  have h := serve_base cfg hf 7 84 rfl (be 0 ++ beI lines) [] rfl
  rw [List.append_nil] at h
  unfold sendLog
  rw [h]
  show Out.run (.log (u32 ((be 0 ++ beI lines).drop 4)).toInt (u32 (be 0 ++ beI lines)).toNat) = _
  rw [drop_be, u32_be, ← List.append_nil (beI _), u32_beI _ hr]
  rfl

theorem sent_scan (cfg : Cfg) (hf : Fits cfg) (sync : Bool) : serve cfg (sendScan cfg sync) = .run (.scan sync) := by
  have h := serve_base cfg hf 13 80 rfl (beB sync) [] rfl
  rw [List.append_nil] at h
  unfold sendScan
  rw [h]
  show Out.run (.scan (u32 (beB sync) != 0)) = _
  rw [← List.append_nil (beB _), u32_beB]

theorem sent_history (cfg : Cfg) (hf : Fits cfg) (hidden : Bool) : serve cfg (sendHistory cfg hidden) = .run (.history hidden) := by
  have h := serve_base cfg hf 14 80 rfl (beB hidden) [] rfl
  rw [List.append_nil] at h
  unfold sendHistory
  rw [h]
  show Out.run (.history (u32 (beB hidden) != 0)) = _
  rw [← List.append_nil (beB _), u32_beB]

/-- The requests without arguments. -/
theorem sent_plain (cfg : Cfg) (hf : Fits cfg) :
    serve cfg (sendPlain cfg 5) = .run .dumpDebug ∧ serve cfg (sendPlain cfg 8) = .run .shutdown ∧ serve cfg (sendPlain cfg 9) = .run .reload ∧
    serve cfg (sendPlain cfg 10) = .run .version ∧ serve cfg (sendPlain cfg 11) = .run .postQueue := by
  have h : ∀ type, size type = some 76 → serve cfg (sendPlain cfg type) = command type [] [] := by
    intro type hs
    have := serve_base cfg hf type 76 hs [] [] rfl
    rw [List.append_nil, List.append_nil] at this
    exact this
  refine ⟨?_, ?_, ?_, ?_, ?_⟩
  all_goals (rw [h _ rfl]; rfl)

theorem command3 (b s : Bytes) : command 3 b s = match str (b.drop 16) with
    | some pattern => .run (.list (u32 b != 0) (u32 (b.drop 4) != 0) (u32 (b.drop 8)).toNat (u32 (b.drop 12) != 0) pattern)
    | none => if u32 b != 0 && (u32 (b.drop 8)).toNat == 3 then .ub
      else .run (.list (u32 b != 0) (u32 (b.drop 4) != 0) (u32 (b.drop 8)).toNat (u32 (b.drop 12) != 0) []) := rfl

theorem sent_list (cfg : Cfg) (hf : Fits cfg) (junk : Nat → UInt8) (groups : Bool) (pattern : Option Bytes) (hp : ∀ p, pattern = some p → Plain p) :
    ∃ p, serve cfg (sendList cfg junk groups pattern) = .run (.list true true (if pattern.isSome then 3 else 1) groups p) ∧
      ∀ q, pattern = some q → p = q.take 511 := by
  have h := fun f hl => serve_base cfg hf 3 604 rfl (beB true ++ (beB true ++ (be (if pattern.isSome then 3 else 1) ++ (beB groups ++ f)))) [] hl
  simp only [List.append_nil] at h
  unfold sendList
  have hd8 : ∀ f, (beB true ++ (beB true ++ (be (if pattern.isSome then 3 else 1) ++ (beB groups ++ f)))).drop 8 =
      be (if pattern.isSome then 3 else 1) ++ (beB groups ++ f) := fun _ => rfl
  have hd12 : ∀ f, (beB true ++ (beB true ++ (be (if pattern.isSome then 3 else 1) ++ (beB groups ++ f)))).drop 12 = beB groups ++ f := fun _ => rfl
  have hd16 : ∀ f, (beB true ++ (beB true ++ (be (if pattern.isSome then 3 else 1) ++ (beB groups ++ f)))).drop 16 = f := fun _ => rfl
  cases pattern with
  | some q =>
    dsimp only
    rw [h _ (by simp only [List.length_append, beB_length, be_length, field_length 512 q (by omega)])]
    refine ⟨q.take 511, ?_, fun _ e => by cases e; rfl⟩
    rw [command3]
    rw [hd8, hd12, hd16, ← List.append_nil (field 512 q), str_field 512 q [] (by omega) (hp q rfl)]
    dsimp only
    rw [drop_beB, u32_beB, u32_beB, u32_be, u32_beB]
    rfl
  | none =>
    dsimp only
    rw [h _ (by simp only [List.length_append, beB_length, be_length, List.length_map, List.length_range])]
    rw [command3]
    rw [hd8, hd12, hd16, drop_beB, u32_beB, u32_beB, u32_be, u32_beB]
    generalize str ((List.range 512).map junk) = r
    cases r with
    | none => exact ⟨[], rfl, fun _ e => by cases e⟩
    | some x => exact ⟨x, rfl, fun _ e => by cases e⟩

theorem writeLog_eq (b s t : Bytes) (k : Nat) (h1 : (u32 b).toNat = k) (hk : k ≤ 4) (h2 : (u32 (b.drop 4)).toInt = (s.length : Int))
    (ht : str s = some t) : writeLog b s = .run (.writeLog k t) := by
  have hr := recv_len (n := s.length) (a := s) [] rfl
  rw [List.append_nil] at hr
  unfold writeLog
  simp only [h1, h2]
  rw [if_neg (by omega), Int.toNat_natCast, hr]
  show (if k ≤ 4 then _ else _) = _
  rw [if_pos hk, ht]

theorem isInt_nat (n : Nat) (h : n < 2 ^ 31) : IsInt n := by unfold IsInt; omega
theorem command12 (b s : Bytes) : command 12 b s = writeLog b s := rfl
theorem command6 (b s : Bytes) : command 6 b s = edit b s := rfl
theorem command1 (b s : Bytes) : command 1 b s = download b s := rfl
theorem small_lt (n : Nat) (hl : n ≤ 4) : n < 2 ^ 31 := Nat.lt_of_le_of_lt hl (by decide)

theorem u32_nat (n : Nat) (h : n < 2 ^ 31) (t : Bytes) : (u32 (beI n ++ t)).toInt = n := u32_beI _ (isInt_nat _ h) _

theorem second_nat (a : Int) (n : Nat) (h : n < 2 ^ 31) : (u32 ((beI a ++ beI n).drop 4)).toInt = n := by
  rw [drop_beI, ← List.append_nil (beI _)]
  exact u32_nat n h _

/-- A line for the log arrives as it was given. -/
theorem sent_writeLog (cfg : Cfg) (hf : Fits cfg) (kind : Nat) (hk : kind ≤ 4) (text : Bytes) (ht : Plain text) (hl : text.length + 1 < 2 ^ 31) :
    serve cfg (sendWriteLog cfg kind text) = .run (.writeLog kind text) := by
  have e : sendWriteLog cfg kind text = base cfg 12 84 ++ ((beI kind ++ beI (text.length + 1 : Nat)) ++ (text ++ [0])) := by
    unfold sendWriteLog
    simp only [List.append_assoc]
  rw [e, serve_base cfg hf 12 84 rfl _ _ rfl, command12]
  refine writeLog_eq _ _ _ _ (u32_beN _ (small_lt _ hk) _) hk ?_ (str_append text [] ht)
  rw [second_nat _ _ hl]
  rw [List.length_append, List.length_singleton]

/-! ### Adding files and addresses -/

/-- The first bytes are those of an address, for both sides. -/
def LooksLikeUrl (b : Bytes) : Prop :=
  (lit "http:/").map WildMask.lower <+: b.map WildMask.lower ∨ (lit "https:/").map WildMask.lower <+: b.map WildMask.lower

theorem nEqCase_true (n : Nat) (b l : Bytes) (hn : n ≤ l.length) : nEqCase n b l = some true ↔ (l.take n).map WildMask.lower <+: b.map WildMask.lower := by
  induction n generalizing b l with
  | zero => simp [nEqCase]
  | succ n ih =>
    cases l with
    | nil => simp at hn
    | cons c l => cases b with
      | nil => simp [nEqCase]
      | cons x b =>
        rw [nEqCase, List.take_succ_cons, List.map_cons, List.map_cons, List.cons_prefix_cons]
        by_cases h : WildMask.lower x = WildMask.lower c
        · rw [if_pos (by simpa using h), ih b l (by simpa using hn)]
          exact ⟨fun q => ⟨h.symm, q⟩, fun q => q.2⟩
        · rw [if_neg (by simpa using h)]
          exact ⟨(fun q => nomatch q), fun q => absurd q.1.symm h⟩

theorem nEqCase_some (n : Nat) (b l : Bytes) (hn : n ≤ l.length) (hb : n ≤ b.length) : nEqCase n b l ≠ none := by
  induction n generalizing b l with
  | zero => simp [nEqCase]
  | succ n ih =>
    cases l with
    | nil => simp at hn
    | cons c l => cases b with
      | nil => simp at hb
      | cons x b =>
        rw [nEqCase]
        split
        · exact ih b l (by simpa using hn) (by simpa using hb)
        · simp

theorem isUrl_true (b : Bytes) (h : LooksLikeUrl b) : isUrl b = some true := by
  unfold isUrl
  have h6 := nEqCase_true 6 b (lit "http://") (by decide)
  have h7 := nEqCase_true 7 b (lit "https://") (by decide)
  have e6 : (lit "http://").take 6 = lit "http:/" := by decide
  have e7 : (lit "https://").take 7 = lit "https:/" := by decide
  rw [e6] at h6
  rw [e7] at h7
  cases h with
  | inl h => rw [h6.mpr h]
  | inr h =>
    have hl : 7 ≤ b.length := by
      have := h.length_le
      rw [List.length_map, List.length_map] at this
      exact this
    have hs := nEqCase_some 6 b (lit "http://") (by decide) (by omega)
    generalize nEqCase 6 b (lit "http://") = r at hs ⊢
    cases r with
    | none => exact absurd rfl hs
    | some r => cases r with
      | true => rfl
      | false => exact h7.mpr h

theorem isUrl_false (b : Bytes) (hl : 7 ≤ b.length) (h : ¬ LooksLikeUrl b) : isUrl b = some false := by
  unfold isUrl
  have h6 := nEqCase_true 6 b (lit "http://") (by decide)
  have h7 := nEqCase_true 7 b (lit "https://") (by decide)
  have e6 : (lit "http://").take 6 = lit "http:/" := by decide
  have e7 : (lit "https://").take 7 = lit "https:/" := by decide
  rw [e6] at h6
  rw [e7] at h7
  have s6 := nEqCase_some 6 b (lit "http://") (by decide) (by omega)
  have s7 := nEqCase_some 7 b (lit "https://") (by decide) hl
  generalize nEqCase 6 b (lit "http://") = r at h6 s6 ⊢
  generalize nEqCase 7 b (lit "https://") = q at h7 s7 ⊢
  cases r with
  | none => exact absurd rfl s6
  | some r => cases r with
    | true => exact absurd (.inl (h6.mp rfl)) h
    | false =>
      cases q with
      | none => exact absurd rfl s7
      | some q => cases q with
        | true => exact absurd (.inr (h7.mp rfl)) h
        | false => rfl

/-- The fields of the request, one after another. -/
theorem download_fields (f c d data : Bytes) (hf : f.length = 512) (hc : c.length = 512) (hd : d.length = 512) (top paused : Bool) (pr sc mo : Int)
    (hpr : IsInt pr) (hsc : IsInt sc) (hmo : IsInt mo) (hl : data.length < 2 ^ 31) :
    download (f ++ (c ++ (beB top ++ (beB paused ++ (beI pr ++ (beI sc ++ (beI mo ++ (d ++ beI data.length)))))))) data =
      match isUrl data, str (f ++ (c ++ (beB top ++ (beB paused ++ (beI pr ++ (beI sc ++ (beI mo ++ (d ++ beI data.length)))))))),
          str (c ++ (beB top ++ (beB paused ++ (beI pr ++ (beI sc ++ (beI mo ++ (d ++ beI data.length))))))), str (d ++ beI data.length) with
      | some url, some filename, some category, some dupeKey =>
        match (if url then str data else some data) with
        | none => .ub
        | some x => .run (.add url x filename category dupeKey top paused pr sc mo)
      | _, _, _, _ => .ub := by
  have hlen : (u32 (beI data.length)).toInt = (data.length : Int) := by
    rw [← List.append_nil (beI _)]
    exact u32_nat _ hl _
  have hr := recv_len (n := data.length) (a := data) [] rfl
  rw [List.append_nil] at hr
  unfold download
  simp only [drop_len _ hf, drop_len _ hc, drop_len _ hd, drop_beB, drop_beI, hlen]
  rw [if_neg (by omega), Int.toNat_natCast, hr]
  simp only [u32_beB, u32_beI _ hpr, u32_beI _ hsc, u32_beI _ hmo]
  rfl

/-- How the client writes the three texts. -/
def filenameField (junk : Nat → UInt8) (url : Bool) (path : Bytes) (a : Add) : Bytes :=
  if a.filename ≠ [] then field 512 a.filename else if !url then field 512 path else blank junk 512
def categoryField (junk : Nat → UInt8) (a : Add) : Bytes := match a.category with | some c => field 512 c | none => blank junk 512
def dupeKeyField (junk : Nat → UInt8) (a : Add) : Bytes := if a.dupeKey ≠ [] then field 512 a.dupeKey else blank junk 512

theorem filenameField_spec (junk : Nat → UInt8) (url : Bool) (path : Bytes) (a : Add) (h1 : Plain a.filename) (h2 : Plain path) :
    (filenameField junk url path a).length = 512 ∧
    ∀ t, str (filenameField junk url path a ++ t) = some ((if a.filename ≠ [] then a.filename else if url then [] else path).take 511) := by
  unfold filenameField
  by_cases h : a.filename ≠ []
  · rw [if_pos h, if_pos h]
    exact ⟨field_length _ _ (by omega), fun t => str_field 512 _ t (by omega) h1⟩
  · rw [if_neg h, if_neg h]
    cases url with
    | false => exact ⟨field_length _ _ (by omega), fun t => str_field 512 _ t (by omega) h2⟩
    | true => exact ⟨blank_length _ _ (by omega), fun t => str_blank junk 512 t⟩

theorem categoryField_spec (junk : Nat → UInt8) (a : Add) (h : Plain (a.category.getD [])) :
    (categoryField junk a).length = 512 ∧ ∀ t, str (categoryField junk a ++ t) = some ((a.category.getD []).take 511) := by
  unfold categoryField
  cases hc : a.category with
  | none => exact ⟨blank_length _ _ (by omega), fun t => str_blank junk 512 t⟩
  | some c =>
    rw [hc] at h
    exact ⟨field_length _ _ (by omega), fun t => str_field 512 _ t (by omega) h⟩

theorem dupeKeyField_spec (junk : Nat → UInt8) (a : Add) (h : Plain a.dupeKey) :
    (dupeKeyField junk a).length = 512 ∧ ∀ t, str (dupeKeyField junk a ++ t) = some (a.dupeKey.take 511) := by
  unfold dupeKeyField
  by_cases e : a.dupeKey ≠ []
  · rw [if_pos e]
    exact ⟨field_length _ _ (by omega), fun t => str_field 512 _ t (by omega) h⟩
  · rw [if_neg e]
    have e : a.dupeKey = [] := Classical.byContradiction e
    rw [e]
    exact ⟨blank_length _ _ (by omega), fun t => str_blank junk 512 t⟩

/-- The texts and numbers of a request which C can represent. -/
structure Sane (path : Bytes) (a : Add) : Prop where
  filename : Plain a.filename
  path : Plain path
  category : Plain (a.category.getD [])
  dupeKey : Plain a.dupeKey
  priority : IsInt a.priority
  dupeScore : IsInt a.dupeScore
  dupeMode : IsInt a.dupeMode

/-- The command the user has asked for; names of 512 bytes and more are cut. -/
def asked (url : Bool) (path content : Bytes) (a : Add) : Cmd :=
  .add url content ((if a.filename ≠ [] then a.filename else if url then [] else path).take 511) ((a.category.getD []).take 511) (a.dupeKey.take 511)
    a.top a.paused a.priority a.dupeScore a.dupeMode

theorem sent_add (cfg : Cfg) (hf : Fits cfg) (junk : Nat → UInt8) (url : Bool) (path : Bytes) (a : Add) (hs : Sane path a) (data : Bytes)
    (hd : data = if url then a.content ++ [0] else a.content) (hl : data.length < 2 ^ 31) :
    serve cfg (sendAdd cfg junk url path a) =
      match isUrl data with
      | some u => match (if u then str data else some data) with
        | none => .ub
        | some x => .run (match asked url path x a with | .add _ c f g k t p x y z => .add u c f g k t p x y z | o => o)
      | none => .ub := by
  obtain ⟨l1, s1⟩ := filenameField_spec junk url path a hs.filename hs.path
  obtain ⟨l2, s2⟩ := categoryField_spec junk a hs.category
  obtain ⟨l3, s3⟩ := dupeKeyField_spec junk a hs.dupeKey
  have e : sendAdd cfg junk url path a = base cfg 1 1636 ++
      ((filenameField junk url path a ++ (categoryField junk a ++ (beB a.top ++ (beB a.paused ++ (beI a.priority ++ (beI a.dupeScore ++ (beI a.dupeMode ++
      (dupeKeyField junk a ++ beI data.length)))))))) ++ data) := by
    unfold sendAdd
    simp only [List.append_assoc, ← hd]
    rfl
  have hb : (filenameField junk url path a ++ (categoryField junk a ++ (beB a.top ++ (beB a.paused ++ (beI a.priority ++ (beI a.dupeScore ++ (beI a.dupeMode ++
      (dupeKeyField junk a ++ beI data.length)))))))).length = 1636 - 76 := by
    simp only [List.length_append, l1, l2, l3, beB_length, beI_length]
  rw [e, serve_base cfg hf 1 1636 rfl _ _ hb, command1,
    download_fields _ _ _ _ l1 l2 l3 _ _ _ _ _ hs.priority hs.dupeScore hs.dupeMode hl, s1, s2, s3]
  generalize isUrl data = r
  cases r <;> rfl

/-- A file of at least seven bytes which does not look like an address arrives in the queue as it is, with everything the user has said about it. -/
theorem sent_file_partial (cfg : Cfg) (hf : Fits cfg) (junk : Nat → UInt8) (path : Bytes) (a : Add) (hs : Sane path a) (hl : a.content.length < 2 ^ 31)
    (h7 : 7 ≤ a.content.length) (hu : ¬ LooksLikeUrl a.content) : serve cfg (sendAdd cfg junk false path a) = .run (asked false path a.content a) := by
  rw [sent_add cfg hf junk false path a hs a.content rfl hl, isUrl_false _ h7 hu]
  rfl

theorem looks_append (b t : Bytes) (h : LooksLikeUrl b) : LooksLikeUrl (b ++ t) := by
  unfold LooksLikeUrl at *
  rw [List.map_append]
  exact h.imp (fun q => q.trans (List.prefix_append _ _)) (fun q => q.trans (List.prefix_append _ _))

/-- An address arrives as it is. -/
theorem sent_url (cfg : Cfg) (hf : Fits cfg) (junk : Nat → UInt8) (path : Bytes) (a : Add) (hs : Sane path a) (hl : a.content.length + 1 < 2 ^ 31)
    (hp : Plain a.content) (hu : LooksLikeUrl a.content) : serve cfg (sendAdd cfg junk true path a) = .run (asked true path a.content a) := by
  rw [sent_add cfg hf junk true path a hs (a.content ++ [0]) rfl (by rw [List.length_append]; exact hl), isUrl_true _ (looks_append _ _ hu)]
  dsimp only
  rw [if_pos rfl, str_append a.content [] hp]
  rfl

/-- An empty file given to the client makes the server read behind the buffer. -/
theorem empty_file (cfg : Cfg) (hf : Fits cfg) (junk : Nat → UInt8) (path : Bytes) (a : Add) (hs : Sane path a) (hc : a.content = []) :
    serve cfg (sendAdd cfg junk false path a) = .ub := by
  rw [sent_add cfg hf junk false path a hs [] (by rw [hc]; rfl) (by decide)]
  rfl

/-- So does a file which begins like an address (the server takes it for one, but there is no end of the text in it). -/
theorem file_like_url (cfg : Cfg) (hf : Fits cfg) (junk : Nat → UInt8) (path : Bytes) (a : Add) (hs : Sane path a) (hl : a.content.length < 2 ^ 31)
    (hp : Plain a.content) (hu : LooksLikeUrl a.content) : serve cfg (sendAdd cfg junk false path a) = .ub := by
  rw [sent_add cfg hf junk false path a hs a.content rfl hl, isUrl_true _ hu]
  dsimp only
  rw [if_pos rfl, str_none _ hp]

example : LooksLikeUrl (lit "HTTP:/x") ∧ ¬ LooksLikeUrl (lit "<?xml version") ∧ Sane (lit "a.nzb") ⟨lit "<?xml version", [], none, [], false, true, 50, 0, 1⟩ := by
  refine ⟨.inl (by decide), ?_, ⟨?_, ?_, ?_, ?_, ?_, ?_, ?_⟩⟩
  · intro h
    cases h with
    | inl h => exact absurd h (by decide)
    | inr h => exact absurd h (by decide)
  all_goals first | (unfold Plain; decide) | (unfold IsInt; decide)

/-! ### Editing the queue -/

theorem readIds_eq (pre post : Bytes) (ids : List Int) (h : ∀ i ∈ ids, IsInt i) :
    readIds (pre ++ (ids.flatMap beI ++ post)) ids.length pre.length = some ids := by
  induction ids generalizing pre with
  | nil => rfl
  | cons i ids ih =>
    rw [List.length_cons, readIds, if_neg]
    · have e : pre ++ ((i :: ids).flatMap beI ++ post) = (pre ++ beI i) ++ (ids.flatMap beI ++ post) := by simp [List.flatMap_cons]
      have hi := ih (pre ++ beI i) (fun j hj => h j (List.mem_cons_of_mem _ hj))
      rw [← e, List.length_append, beI_length, Int.natCast_add] at hi
      have hi' : readIds (pre ++ ((i :: ids).flatMap beI ++ post)) ids.length ((pre.length : Int) + 4) = some ids := hi
      rw [hi', Int.toNat_natCast, drop_len _ rfl, List.flatMap_cons, List.append_assoc]
      dsimp only
      rw [u32_beI _ (h i List.mem_cons_self)]
    · simp only [List.flatMap_cons, List.length_append, beI_length]
      omega

theorem readNames_eq (pre post : Bytes) (names : List Bytes) (h : ∀ n ∈ names, Plain n) :
    readNames (pre ++ (nameBytes names ++ post)) names.length pre.length = some names := by
  induction names generalizing pre with
  | nil => rfl
  | cons n names ih =>
    rw [List.length_cons, readNames, if_neg]
    · have e : pre ++ (nameBytes (n :: names) ++ post) = (pre ++ (n ++ [0])) ++ (nameBytes names ++ post) := by simp [nameBytes, List.flatMap_cons]
      have hi := ih (pre ++ (n ++ [0])) (fun j hj => h j (List.mem_cons_of_mem _ hj))
      rw [← e] at hi
      have hs : str ((pre ++ (nameBytes (n :: names) ++ post)).drop pre.length) = some n := by
        rw [drop_len _ rfl]
        have := str_append n (nameBytes names ++ post) (h n List.mem_cons_self)
        rw [← this]
        simp [nameBytes, List.flatMap_cons]
      rw [Int.toNat_natCast, hs]
      dsimp only
      have hl : ((pre ++ (n ++ [0])).length : Int) = (pre.length : Int) + n.length + 1 := by
        simp only [List.length_append, List.length_singleton]
        omega
      rw [← hl, hi]
    · simp only [List.length_append]
      omega

theorem align_ge (n : Nat) : n ≤ align n := by unfold align; omega

/-- The eight numbers of the request. -/
theorem edit_fields (action offset mode : Int) (nrIds nrNames namesLen textLen bufLen : Nat) (data : Bytes)
    (ha : IsInt action) (ho : IsInt offset) (hm : IsInt mode) (hb : bufLen < 2 ^ 31) (hn : nrNames ≤ namesLen)
    (hsum : textLen + 4 * nrIds + namesLen = bufLen) (hd : data.length = bufLen) (hne : 0 < nrIds ∨ 0 < nrNames) :
    edit (beI action ++ (beI offset ++ (beI mode ++ (beI nrIds ++ (beI nrNames ++ (beI namesLen ++ (beI textLen ++ beI bufLen))))))) data =
      match readIds data nrIds textLen, readNames data nrNames (textLen + nrIds * 4 : Int),
        (if moveOffset action then some (some (decInt offset)) else if (textLen : Int) > 0 then (str data).map some else some none) with
      | some ids, some names, some args => .run (.edit action mode ids names args)
      | _, _, _ => .ub := by
  have hr := recv_len (n := bufLen) (a := data) [] hd
  rw [List.append_nil] at hr
  have h7 : (u32 (beI bufLen)).toNat = bufLen := by rw [← List.append_nil (beI _)]; exact u32_beN _ hb _
  have h7' : (u32 (beI bufLen)).toInt = bufLen := by rw [← List.append_nil (beI _)]; exact u32_nat _ hb _
  unfold edit
  simp only [drop_beI, u32_beI _ ha, u32_beI _ ho, u32_beI _ hm, u32_nat _ (by omega : nrIds < 2 ^ 31), u32_nat _ (by omega : nrNames < 2 ^ 31),
    u32_nat _ (by omega : namesLen < 2 ^ 31), u32_nat _ (by omega : textLen < 2 ^ 31), h7, h7']
  rw [if_neg (by omega), if_neg (by omega), hr]
  show (if (nrIds : Int) ≤ 0 ∧ (nrNames : Int) ≤ 0 then _ else _) = _
  rw [if_neg (by omega), Int.toNat_natCast, Int.toNat_natCast]
  rfl

theorem nameBytes_length (names : List Bytes) : names.length ≤ (nameBytes names).length := by
  induction names with
  | nil => exact Nat.le_refl _
  | cons n names ih =>
    unfold nameBytes at ih ⊢
    rw [List.flatMap_cons, List.length_append, List.length_append, List.length_singleton, List.length_cons]
    omega

theorem ids_length (ids : List Int) : (ids.flatMap beI).length = 4 * ids.length := by
  induction ids with
  | nil => rfl
  | cons i ids ih =>
    rw [List.flatMap_cons, List.length_append, ih, beI_length, List.length_cons]
    omega

/-- The length of the text in the request, and the text. -/
def textLenOf (text : Option Bytes) : Nat := match text with | some t => align (t.length + 1) | none => 0
def textDataOf (text : Option Bytes) : Bytes := match text with | some t => t ++ List.replicate (align (t.length + 1) - t.length) 0 | none => []

theorem textData_spec (text : Option Bytes) (h : ∀ t, text = some t → Plain t) :
    (textDataOf text).length = textLenOf text ∧
    ∀ r, (if (textLenOf text : Int) > 0 then (str (textDataOf text ++ r)).map some else some none) = some text := by
  cases text with
  | none => exact ⟨rfl, fun r => rfl⟩
  | some t =>
    have ha := align_ge (t.length + 1)
    unfold textDataOf textLenOf
    dsimp only
    constructor
    · rw [List.length_append, List.length_replicate]
      omega
    · intro r
      rw [if_pos (by omega)]
      obtain ⟨m, hm⟩ : ∃ m, align (t.length + 1) - t.length = m + 1 := ⟨align (t.length + 1) - t.length - 1, by omega⟩
      rw [hm, List.replicate_succ, List.append_assoc, List.cons_append, str_append _ _ (h t rfl)]
      rfl

/-- A command for the queue arrives as it was given: the same action for the same ids and names, with the same argument;
moving of a file (1) or of a group (11) by some places has the number of places as argument. -/
theorem sent_edit (cfg : Cfg) (hf : Fits cfg) (junk : Nat → UInt8) (action offset mode : Int) (text : Option Bytes) (ids : List Int) (names : List Bytes)
    (ha : IsInt action) (ho : IsInt offset) (hm : IsInt mode) (ht : ∀ t, text = some t → Plain t) (hi : ∀ i ∈ ids, IsInt i) (hn : ∀ n ∈ names, Plain n)
    (hne : ids ≠ [] ∨ names ≠ []) (hl : textLenOf text + 4 * ids.length + align (nameBytes names).length < 2 ^ 31) :
    serve cfg (sendEdit cfg junk action offset text ids names mode) =
      .run (.edit action mode ids names (if action = 1 ∨ action = 11 then some (decInt offset) else text)) := by
  obtain ⟨l1, s1⟩ := textData_spec text ht
  have hal := align_ge (nameBytes names).length
  have hnb := nameBytes_length names
  let nameData := nameBytes names ++ (List.range (align (nameBytes names).length - (nameBytes names).length)).map junk
  have e : sendEdit cfg junk action offset text ids names mode = base cfg 6 108 ++
      ((beI action ++ (beI offset ++ (beI mode ++ (beI ids.length ++ (beI names.length ++ (beI (align (nameBytes names).length : Nat) ++ (beI (textLenOf text : Nat) ++
        beI (textLenOf text + 4 * ids.length + align (nameBytes names).length : Nat)))))))) ++
      (textDataOf text ++ (ids.flatMap beI ++ nameData))) := by
    unfold sendEdit textDataOf textLenOf
    cases text <;> simp only [List.append_assoc, nameData]
  have hd : (textDataOf text ++ (ids.flatMap beI ++ nameData)).length = textLenOf text + 4 * ids.length + align (nameBytes names).length := by
    simp only [nameData, List.length_append, l1, ids_length, List.length_map, List.length_range]
    omega
  have hne' : 0 < ids.length ∨ 0 < names.length := hne.imp List.length_pos_iff.mpr List.length_pos_iff.mpr
  rw [e, serve_base cfg hf 6 108 rfl _ _ rfl, command6,
    edit_fields action offset mode ids.length names.length _ _ _ _ ha ho hm hl (by omega) rfl hd hne', s1]
  have h1 : readIds (textDataOf text ++ (ids.flatMap beI ++ nameData)) ids.length (textLenOf text : Nat) = some ids := by
    rw [← l1]
    exact readIds_eq _ _ _ hi
  have h2 : readNames (textDataOf text ++ (ids.flatMap beI ++ nameData)) names.length ((textLenOf text : Nat) + ids.length * 4 : Int) = some names := by
    have := readNames_eq (textDataOf text ++ ids.flatMap beI) ((List.range (align (nameBytes names).length - (nameBytes names).length)).map junk) names hn
    rw [List.append_assoc, List.length_append, l1, ids_length] at this
    have q : (((textLenOf text + 4 * ids.length : Nat)) : Int) = (textLenOf text : Nat) + ids.length * 4 := by omega
    rw [q] at this
    exact this
  rw [h1, h2]
  have hmo : moveOffset action = true ↔ action = 1 ∨ action = 11 := by
    unfold moveOffset
    rw [Bool.or_eq_true, beq_iff_eq, beq_iff_eq]
  by_cases h : action = 1 ∨ action = 11
  · rw [if_pos (hmo.2 h), if_pos h]
  · rw [if_neg (fun q => h (hmo.1 q)), if_neg h]

example : textLenOf (some (lit "x")) = 4 ∧ align (nameBytes [lit "a", lit "bc"]).length = 8 ∧ moveOffset 11 = true ∧ moveOffset 5 = false := by decide

/-! ### Wrong requests -/

/-- More names than there are in the data: for every authorised request of this kind the server reads behind the buffer. -/
theorem names_overrun (cfg : Cfg) (hf : Fits cfg) (action offset mode : Int) (ha : IsInt action) (ho : IsInt offset) (hm : IsInt mode) (n : Nat) (h0 : 0 < n)
    (hn : n < 2 ^ 31) (t : Bytes) :
    serve cfg (base cfg 6 108 ++ ((beI action ++ (beI offset ++ (beI mode ++ (beI 0 ++ (beI n ++ (beI 0 ++ (beI 0 ++ beI 0))))))) ++ t)) = .ub := by
  rw [serve_base cfg hf 6 108 rfl _ _ rfl, command6]
  have z : ∀ t, (u32 (beI 0 ++ t)).toInt = 0 := fun t => u32_nat 0 (by decide) t
  have z1 : (u32 (beI 0)).toInt = 0 := by rw [← List.append_nil (beI _)]; exact z _
  have z2 : (u32 (beI 0)).toNat = 0 := rfl
  have hr := recv_len (n := 0) (a := []) t rfl
  rw [List.nil_append] at hr
  unfold edit
  simp only [drop_beI, u32_beI _ ha, u32_beI _ ho, u32_beI _ hm, z, u32_nat _ hn, z1, z2]
  rw [if_neg (by decide), if_neg (by decide), hr]
  show (if (0 : Int) ≤ 0 ∧ (n : Int) ≤ 0 then _ else _) = _
  rw [if_neg (by omega), Int.toNat_natCast]
  have h1 : readIds [] (0 : Int).toNat 0 = some [] := rfl
  have h2 : readNames [] n (0 + 0 * 4) = none := by
    obtain ⟨m, rfl⟩ : ∃ m, n = m + 1 := ⟨n - 1, by omega⟩
    rfl
  rw [h1, h2]

/-- A negative length of the text lets the server read ids in front of the buffer, although the sum of the lengths is right. -/
theorem negative_text : ∃ s, serve ⟨[], lit "p"⟩ s = .ub ∧ ∀ n ∈ [(u32 (s.drop 88)).toInt, (u32 (s.drop 96)).toInt], 0 ≤ n := by
  refine ⟨base ⟨[], lit "p"⟩ 6 108 ++ ((beI 4 ++ (beI 0 ++ (beI 1 ++ (beI 1 ++ (beI 0 ++ (beI 0 ++ (beI (-4) ++ beI 0))))))) ++ []), ?_, ?_⟩
  · decide +kernel
  · decide +kernel

/-- A negative length of a file or of a line for the log: for every authorised request. -/
theorem negative_length (cfg : Cfg) (hf : Fits cfg) (b s : Bytes) (hb : b.length = 1560) (h : (u32 (b.drop 1556)).toInt < 0) :
    serve cfg (base cfg 1 1636 ++ (b ++ s)) = .ub := by
  rw [serve_base cfg hf 1 1636 rfl _ _ hb, command1]
  unfold download
  simp only [List.drop_drop]
  rw [if_pos h]

theorem negative_line (cfg : Cfg) (hf : Fits cfg) (b s : Bytes) (hb : b.length = 8) (h : (u32 (b.drop 4)).toInt < 0) :
    serve cfg (base cfg 12 84 ++ (b ++ s)) = .ub := by
  rw [serve_base cfg hf 12 84 rfl _ _ hb, command12]
  unfold writeLog
  dsimp only
  rw [if_pos h]

/-- A password of 32 or more characters: the client cuts it, so the server does not accept any request of its own client. -/
theorem long_password (cfg : Cfg) (hp : Plain cfg.pass) (hul : cfg.user.length ≤ 63) (hl : 32 ≤ cfg.pass.length) (type n : Nat) (t : Bytes) :
    serve cfg (base cfg type n ++ t) = .closed := by
  have hb : ∀ (s : Bytes) (r : Bytes), Plain s → 32 ≤ s.length → strEq (field 32 s ++ r) s = some false := by
    intro s r hs hl
    obtain ⟨z, hz⟩ := field_eq 32 s (by omega)
    rw [hz]
    have : ∀ (a b : Bytes), strEq (a ++ b) (a ++ s.drop 31) = strEq b (s.drop 31) := by
      intro a b
      induction a with
      | nil => rfl
      | cons x a ih => rw [List.cons_append, List.cons_append, strEq]; simpa using ih
    have h31 := this (s.take 31) (0 :: (z ++ r))
    rw [List.take_append_drop] at h31
    have e : s.take (32 - 1) ++ 0 :: z ++ r = s.take 31 ++ 0 :: (z ++ r) := by simp
    rw [e, h31]
    have hne : s.drop 31 ≠ [] := by
      intro q
      have := congrArg List.length q
      rw [List.length_drop, List.length_nil] at this
      omega
    cases hd : s.drop 31 with
    | nil => exact absurd hd hne
    | cons c l =>
      have hc : c ≠ 0 := by
        intro q
        exact hs (List.mem_of_mem_drop (by rw [hd, ← q]; exact List.mem_cons_self))
      rw [strEq, if_neg (by simpa using fun q => hc q.symm)]
  have h40 : (head cfg type n).drop 40 = field 32 cfg.pass := by
    unfold head
    rw [show (40 : Nat) = 4 + (4 + 32) from rfl, ← List.drop_drop, drop_be, ← List.drop_drop, drop_be, drop_len _ (field_length 32 _ (by omega))]
  have h8 : (head cfg type n).drop 8 = field 32 cfg.user ++ field 32 cfg.pass := by
    unfold head
    rw [show (8 : Nat) = 4 + 4 from rfl, ← List.drop_drop, drop_be, drop_be]
  have ha : auth cfg (head cfg type n) = some false := by
    unfold auth
    rw [h40]
    have hpf := hb cfg.pass [] hp hl
    rw [List.append_nil] at hpf
    have hus : strEq ((head cfg type n).drop 8) cfg.user ≠ none := strEq_some _ _ (by rw [List.length_drop, head_length]; omega)
    generalize hr : (if cfg.user = [] then some true else strEq ((head cfg type n).drop 8) cfg.user) = r
    cases r with
    | none => split at hr <;> simp_all
    | some r => cases r with
      | false => rfl
      | true => exact hpf
  rw [base_head]
  unfold serve
  rw [recv_len _ (be_length _)]
  dsimp only
  rw [if_neg (fun q => q u32_sig), recv_len _ (head_length cfg type n)]
  dsimp only
  rw [ha]

end Verif.BinReq
