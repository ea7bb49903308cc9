import Verif.Rar
/-
Reading of the headers of rar-files: when it ends, and where it is undefined.
-/
namespace Verif.Rar
open CStr

theorem bind_ok {α β : Type} {m : Rd α} {k : α → Rd β} {f : Bytes} {pos : Nat} {t : Int} {r : β × Nat × Int}
    (h : (m >>= k) f pos t = .ok r) : ∃ a p1 t1, m f pos t = .ok (a, p1, t1) ∧ k a f p1 t1 = .ok r := by
  show _
  have h : Rd.bind m k f pos t = .ok r := h
  unfold Rd.bind at h
  split at h
  next a p1 t1 e => exact ⟨a, p1, t1, e, h⟩
  next => cases h
  next => cases h

/-- A reader which reads at least `n` bytes. -/
def Adv {α : Type} (n : Nat) (m : Rd α) : Prop :=
  ∀ f pos t a pos' t', m f pos t = .ok (a, pos', t') → pos + n ≤ pos' ∧ (0 < n → pos' ≤ f.length)

/-- A round whose last action is a move in the file: it goes on by at least `n` bytes if the size of what is
left out is not negative. -/
def Fwd {α : Type} (n : Nat) (m : Rd α) : Prop :=
  ∀ f pos t a pos' t', m f pos t = .ok (a, pos', t') → 0 ≤ asInt64 t' → pos + n ≤ pos'

theorem adv_le {α : Type} {n : Nat} {m : Rd α} (h : Adv n m) : Adv 0 m := by
  intro f pos t a pos' t' e
  have := h f pos t a pos' t' e
  exact ⟨by omega, by omega⟩

theorem adv_pure {α : Type} (a : α) : Adv 0 (pure a : Rd α) := by
  intro f pos t b pos' t' e
  cases e
  exact ⟨Nat.le_refl _, fun h => absurd h (by omega)⟩

theorem adv_bind {α β : Type} {n : Nat} {m : Rd α} {k : α → Rd β} (hm : Adv n m) (hk : ∀ a, Adv 0 (k a)) :
    ∀ f pos t a pos' t', (m >>= k) f pos t = .ok (a, pos', t') → pos + n ≤ pos' := by
  intro f pos t a pos' t' e
  obtain ⟨x, p1, t1, e1, e2⟩ := bind_ok e
  have h1 := hm f pos t x p1 t1 e1
  have h2 := hk x f p1 t1 a pos' t' e2
  omega

/- Readers which never go back. -/
theorem mono_bind {α β : Type} {m : Rd α} {k : α → Rd β} (hm : Adv 0 m) (hk : ∀ a, Adv 0 (k a)) : Adv 0 (m >>= k) := by
  intro f pos t a pos' t' e
  exact ⟨adv_bind hm hk f pos t a pos' t' e, fun h => absurd h (by omega)⟩

theorem adv_fail {α : Type} (n : Nat) : Adv n (fail : Rd α) := fun _ _ _ _ _ _ e => nomatch e

theorem adv_undefined {α : Type} (n : Nat) : Adv n (undefined : Rd α) := fun _ _ _ _ _ _ e => nomatch e

theorem adv_bytes (n : Nat) : Adv n (bytes n) := by
  intro f pos t a pos' t' e
  unfold bytes at e
  split at e
  next h =>
    cases e
    exact ⟨Nat.le_refl _, fun _ => h⟩
  next => cases e

theorem adv_uint (n : Nat) : Adv n (uint n) := by
  intro f pos t a pos' t' e
  obtain ⟨x, p1, t1, e1, e2⟩ := bind_ok e
  have h1 := adv_bytes n f pos t x p1 t1 e1
  cases e2
  exact h1

theorem adv_setTrail (u : Int) : Adv 0 (setTrail u) := by
  intro f pos t a pos' t' e
  cases e
  exact ⟨Nat.le_refl _, fun h => absurd h (by omega)⟩

theorem adv_getTrail : Adv 0 getTrail := by
  intro f pos t a pos' t' e
  cases e
  exact ⟨Nat.le_refl _, fun h => absurd h (by omega)⟩

theorem adv_getFile : Adv 0 getFile := by
  intro f pos t a pos' t' e
  cases e
  exact ⟨Nat.le_refl _, fun h => absurd h (by omega)⟩

theorem adv_vintLoop : ∀ k i acc, Adv 0 (vintLoop k i acc) := by
  intro k
  induction k with
  | zero => intro i acc; exact mono_bind (adv_le (adv_uint 1)) (fun _ => adv_undefined 0)
  | succ k ih =>
    intro i acc
    refine mono_bind (adv_le (adv_uint 1)) (fun b => ?_)
    dsimp only
    split
    · exact ih _ _
    · exact adv_pure _

theorem adv_vint : Adv 0 vint := adv_vintLoop _ _ _

theorem adv_skip (s : Int) : Adv 0 (skip s) := by
  unfold skip
  split
  · exact mono_bind (adv_le (adv_bytes _)) (fun _ => adv_pure _)
  · exact adv_pure _

theorem adv_opt (c : Bool) (m : Rd Nat) (d : Nat) (h : Adv 0 m) : Adv 0 (opt c m d) := by
  unfold opt
  split
  · exact h
  · exact adv_pure _

theorem adv_skipIf (c : Bool) (s : Int) : Adv 0 (skipIf c s) := by
  unfold skipIf
  split
  · exact adv_skip s
  · exact adv_pure _

theorem adv_high3 : Adv 0 high3 :=
  mono_bind (adv_le (adv_uint 4)) fun _ => mono_bind adv_getTrail fun _ => mono_bind (adv_setTrail _) fun _ =>
    adv_le (adv_uint 4)

theorem adv_file3 (flags : Nat) : Adv 0 (file3 flags) := by
  refine mono_bind (adv_le (adv_uint 4)) fun _ => mono_bind (adv_skip _) fun _ => mono_bind (adv_skip _) fun _ =>
    mono_bind (adv_le (adv_uint 4)) fun _ => mono_bind (adv_skip _) fun _ => mono_bind (adv_le (adv_uint 2)) fun _ =>
    mono_bind (adv_le (adv_uint 4)) fun _ => mono_bind (adv_opt _ _ _ adv_high3) fun _ => ?_
  split
  · exact adv_fail 0
  · exact mono_bind (adv_le (adv_bytes _)) fun _ => adv_pure _

theorem adv_time5 : Adv 0 time5 := by
  refine mono_bind adv_vint fun _ => ?_
  split
  · exact adv_le (adv_uint 4)
  · exact mono_bind (adv_le (adv_uint 4)) fun _ => mono_bind (adv_le (adv_uint 4)) fun _ => adv_pure _

theorem adv_extra5 : ∀ k rem time, Adv 0 (extra5 k rem time) := by
  intro k
  induction k with
  | zero => intro rem time; exact adv_fail 0
  | succ k ih =>
    intro rem time
    rw [extra5]
    split
    · exact adv_pure _
    · exact mono_bind adv_getTrail fun _ => mono_bind adv_vint fun _ => mono_bind adv_getTrail fun _ =>
        mono_bind adv_vint fun _ => mono_bind (adv_opt _ _ _ adv_time5) fun _ => mono_bind adv_getTrail fun _ =>
        mono_bind (adv_skip _) fun _ => ih _ _

theorem adv_file5 (b : Block) : Adv 0 (file5 b) := by
  refine mono_bind adv_vint fun _ => mono_bind adv_vint fun _ => mono_bind adv_vint fun _ =>
    mono_bind (adv_opt _ _ _ (adv_le (adv_uint 4))) fun _ => mono_bind (adv_skipIf _ _) fun _ => mono_bind adv_vint fun _ =>
    mono_bind adv_vint fun _ => mono_bind adv_vint fun _ => ?_
  split
  · exact adv_fail 0
  · exact mono_bind (adv_le (adv_bytes _)) fun _ => mono_bind adv_getFile fun _ =>
      mono_bind (adv_opt _ _ _ (adv_extra5 _ _ _)) fun _ => adv_pure _

/- Rounds -/

theorem fwd_of_adv {α : Type} {m : Rd α} (h : Adv 0 m) : Fwd 0 m :=
  fun f pos t a pos' t' e _ => (h f pos t a pos' t' e).1

theorem fwd_bind {α β : Type} {n : Nat} {m : Rd α} {k : α → Rd β} (hm : Adv n m) (hk : ∀ a, Fwd 0 (k a)) :
    Fwd n (m >>= k) := by
  intro f pos t a pos' t' e ht
  obtain ⟨x, p1, t1, e1, e2⟩ := bind_ok e
  have h1 := hm f pos t x p1 t1 e1
  have h2 := hk x f p1 t1 a pos' t' e2 ht
  omega

theorem fwd_seek {α : Type} (a : α) : Fwd 0 (seek >>= fun _ => (pure a : Rd α)) := by
  intro f pos t b pos' t' e ht
  obtain ⟨x, p1, t1, e1, e2⟩ := bind_ok e
  cases e2
  unfold seek at e1
  dsimp only at e1
  split at e1
  · cases e1
  · cases e1
    omega

/-- Rounds end with an error at the end of the file. -/
def Stops {α : Type} (n : Nat) (m : Rd α) : Prop := ∀ f pos t r, m f pos t = .ok r → pos + n ≤ f.length

theorem stops_bind {α β : Type} {n : Nat} {m : Rd α} {k : α → Rd β} (hn : 0 < n) (hm : Adv n m) : Stops n (m >>= k) := by
  intro f pos t r e
  obtain ⟨x, p1, t1, e1, _⟩ := bind_ok e
  have := hm f pos t x p1 t1 e1
  have := this.2 hn
  omega

theorem adv_bind' {α β : Type} {n : Nat} {m : Rd α} {k : α → Rd β} (hm : Adv n m) (hk : ∀ a, Adv 0 (k a))
    (hs : 0 < n → ∀ a f pos t r p' t', k a f pos t = .ok (r, p', t') → pos ≤ f.length → p' ≤ f.length) :
    Adv n (m >>= k) := by
  intro f pos t a pos' t' e
  refine ⟨adv_bind hm hk f pos t a pos' t' e, fun hn => ?_⟩
  obtain ⟨x, p1, t1, e1, e2⟩ := bind_ok e
  exact hs hn x f p1 t1 a pos' t' e2 ((hm f pos t x p1 t1 e1).2 hn)

/-- Some bytes are read first. -/
def Adv' {α : Type} (n : Nat) (m : Rd α) : Prop :=
  ∀ f pos t a pos' t', m f pos t = .ok (a, pos', t') → pos + n ≤ pos' ∧ pos + n ≤ f.length

theorem adv'_bind {α β : Type} {n : Nat} {m : Rd α} {k : α → Rd β} (hn : 0 < n) (hm : Adv n m) (hk : ∀ a, Adv 0 (k a)) :
    Adv' n (m >>= k) := by
  intro f pos t a pos' t' e
  exact ⟨adv_bind hm hk f pos t a pos' t' e, stops_bind hn hm f pos t _ e⟩

theorem block3_adv : Adv' 2 block3 := by
  refine adv'_bind (by omega) (adv_uint 2) fun _ => mono_bind (adv_le (adv_uint 1)) fun _ =>
    mono_bind (adv_le (adv_uint 2)) fun _ => mono_bind (adv_le (adv_uint 2)) fun _ => ?_
  split
  · exact mono_bind (adv_le (adv_uint 4)) fun _ => mono_bind (adv_setTrail _) fun _ => adv_pure _
  · exact mono_bind (adv_setTrail _) fun _ => adv_pure _

theorem block5_adv : Adv' 4 block5 := by
  exact adv'_bind (by omega) (adv_uint 4) fun _ => mono_bind adv_vint fun _ => mono_bind (adv_setTrail _) fun _ =>
    mono_bind adv_vint fun _ => mono_bind adv_vint fun _ => mono_bind (adv_opt _ _ _ adv_vint) fun _ =>
    mono_bind (adv_opt _ _ _ adv_vint) fun _ => mono_bind adv_getTrail fun _ => mono_bind (adv_setTrail _) fun _ => adv_pure _

/-- A round reads something, and goes on if what it leaves out is not of negative size. -/
def Round {α : Type} (m : Rd α) : Prop :=
  ∀ f pos t a pos' t', m f pos t = .ok (a, pos', t') → pos < f.length ∧ (0 ≤ asInt64 t' → pos < pos')

theorem round_of {α β : Type} {n : Nat} {m : Rd α} {k : α → Rd β} (hn : 0 < n) (hm : Adv' n m) (hk : ∀ a, Fwd 0 (k a)) :
    Round (m >>= k) := by
  intro f pos t a pos' t' e
  obtain ⟨x, p1, t1, e1, e2⟩ := bind_ok e
  have h1 := hm f pos t x p1 t1 e1
  refine ⟨by omega, fun ht => ?_⟩
  have h2 := hk x f p1 t1 a pos' t' e2 ht
  omega

theorem fwd_fail {α : Type} : Fwd 0 (fail : Rd α) := fwd_of_adv (adv_fail 0)

theorem step3_round (v : Vol) : Round (step3 v) := by
  refine round_of (by omega) block3_adv fun b => ?_
  split
  · exact fwd_fail
  split
  · split
    · exact fwd_fail
    · exact fwd_seek _
  split
  · exact fwd_bind (adv_file3 _) fun _ => fwd_seek _
  split
  · refine fwd_bind (adv_skipIf _ _) fun _ => ?_
    split
    · exact fwd_of_adv (mono_bind (adv_le (adv_uint 4)) fun _ => adv_pure _)
    · exact fwd_of_adv (adv_pure _)
  split
  · exact fwd_fail
  · exact fwd_seek _

theorem step5_round (v : Vol) : Round (step5 v) := by
  refine round_of (by omega) block5_adv fun b => ?_
  split
  · exact fwd_fail
  split
  · exact fwd_bind adv_vint fun _ => fwd_bind (adv_opt _ _ _ adv_vint) fun _ => fwd_seek _
  split
  · refine fwd_bind adv_vint fun _ => ?_
    split
    · exact fwd_fail
    · exact fwd_bind adv_vint fun _ => fwd_bind (adv_le (adv_bytes _)) fun _ => fwd_fail
  split
  · exact fwd_bind (adv_file5 _) fun _ => fwd_seek _
  split
  · exact fwd_of_adv (mono_bind adv_vint fun _ => adv_pure _)
  split
  · exact fwd_fail
  · exact fwd_seek _

theorem loop_ends (step : Vol → Rd (Bool × Vol)) (hr : ∀ v, Round (step v)) (f : Bytes)
    (h : ∀ v pos v' pos' t, step v f pos 0 = .ok ((false, v'), pos', t) → 0 ≤ asInt64 t) :
    ∀ n v pos, f.length < pos + n → (loop step f n v pos).isSome = true ∨ n = 0 := by
  intro n
  induction n with
  | zero => intro v pos _; exact .inr rfl
  | succ n ih =>
    intro v pos hn
    refine .inl ?_
    rw [loop]
    split
    next => rfl
    next => rfl
    next => rfl
    next v' pos' t e =>
      have h1 := hr v f pos 0 _ pos' t e
      have h2 := h1.2 (h v pos v' pos' t e)
      cases ih v' pos' (by omega) with
      | inl h => exact h
      | inr h => omega

end Verif.Rar
