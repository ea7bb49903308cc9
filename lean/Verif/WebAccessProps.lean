import Verif.WebAccess
import Verif.TokensProps
import Verif.WildMaskProps
/-!
C37: web access is granted exactly to holders of matching credentials; C38: files are served from the web
directory only.
-/
namespace Verif.WebAccess
open CStr

/-! ### C37, specification -/

/-- `info` is the user name `u` and the password `p`, separated by the first colon. -/
def UserPass (info u p : Bytes) : Prop := info = u ++ 58 :: p ∧ 58 ∉ u

/-- Commas and semicolons separate the entries of option AuthorizedIp. -/
def IpEntry (text m : Bytes) : Prop := Tokens.IsToken (fun c => c == 44 || c == 59) text m

/-- Nothing is checked: there is no control password, or the client has an authorised address. -/
def Unchecked (cfg : Config) (remote : Bytes) : Prop :=
  cfg.controlPassword = [] ∨ ∃ m, IpEntry cfg.authorizedIp m ∧ WildMask.Glob m remote

/-- The user name (if one is configured) and password of the control user. -/
def ControlUser (cfg : Config) (info : Bytes) : Prop :=
  ∃ u p, UserPass info u p ∧ (cfg.controlUsername = [] ∨ u = cfg.controlUsername) ∧ p = cfg.controlPassword

/-- The configured user name and password of the restricted user. -/
def RestrictedUser (cfg : Config) (info : Bytes) : Prop :=
  ∃ u p, UserPass info u p ∧ cfg.restrictedUsername ≠ [] ∧ u = cfg.restrictedUsername ∧ p = cfg.restrictedPassword

/-- The configured user name and password of the add-user. -/
def AddUser (cfg : Config) (info : Bytes) : Prop :=
  ∃ u p, UserPass info u p ∧ cfg.addUsername ≠ [] ∧ u = cfg.addUsername ∧ p = cfg.addPassword

/-- The access of a client with the given address, credentials and session token. -/
inductive Granted (cfg : Config) (remote info tok : Bytes) : Access → Prop
  | unchecked : Unchecked cfg remote → Granted cfg remote info tok .control
  | token (a) : ¬ Unchecked cfg remote → info = [] → tok = cfg.token a → Granted cfg remote info tok a
  | control : ¬ Unchecked cfg remote → ControlUser cfg info → Granted cfg remote info tok .control
  | restricted : ¬ Unchecked cfg remote → ¬ ControlUser cfg info → RestrictedUser cfg info →
      Granted cfg remote info tok .restricted
  | add : ¬ Unchecked cfg remote → ¬ ControlUser cfg info → ¬ RestrictedUser cfg info → AddUser cfg info →
      Granted cfg remote info tok .add

/-! ### C37, proofs -/

theorem split_colon (info : Bytes) (h : 58 ∈ info) :
    UserPass info (info.takeWhile (· != 58)) ((info.dropWhile (· != 58)).drop 1) := by
  induction info with
  | nil => exact absurd h (by simp)
  | cons c s ih =>
    by_cases hc : c = 58
    · subst hc
      exact ⟨by simp, by simp⟩
    · have hs : 58 ∈ s := by
        rcases List.mem_cons.mp h with h | h
        · exact absurd h.symm hc
        · exact h
      obtain ⟨h1, h2⟩ := ih hs
      have hb : (c != 58) = true := by simp [hc]
      rw [List.takeWhile_cons, if_pos hb, List.dropWhile_cons, if_pos hb]
      refine ⟨?_, ?_⟩
      · rw [List.cons_append, ← h1]
      · intro hm
        rcases List.mem_cons.mp hm with h | h
        · exact hc h.symm
        · exact h2 h

theorem userPass_unique {info u p v q : Bytes} (h1 : UserPass info u p) (h2 : UserPass info v q) : u = v ∧ p = q := by
  obtain ⟨e1, n1⟩ := h1
  obtain ⟨e2, n2⟩ := h2
  have he := e1.symm.trans e2
  clear e1 e2
  induction u generalizing v with
  | nil =>
    cases v with
    | nil => simp at he; exact ⟨rfl, he⟩
    | cons c v =>
      simp at he
      exact absurd (he.1 ▸ List.mem_cons_self) n2
  | cons c u ih =>
    cases v with
    | nil =>
      simp at he
      exact absurd (he.1 ▸ List.mem_cons_self) n1
    | cons d v =>
      simp only [List.cons_append, List.cons.injEq] at he
      obtain ⟨rfl, he⟩ := he
      obtain ⟨rfl, rfl⟩ := ih (fun h => n1 (List.mem_cons_of_mem _ h)) (fun h => n2 (List.mem_cons_of_mem _ h)) he
      exact ⟨rfl, rfl⟩

theorem userPass_iff (info u p : Bytes) : UserPass info u p ↔
    58 ∈ info ∧ info.takeWhile (· != 58) = u ∧ (info.dropWhile (· != 58)).drop 1 = p := by
  constructor
  · intro h
    have hm : 58 ∈ info := by rw [h.1]; simp
    exact ⟨hm, userPass_unique (split_colon info hm) h⟩
  · rintro ⟨hm, rfl, rfl⟩
    exact split_colon info hm

theorem byPassword_eq (cfg : Config) (info : Bytes) (a : Access) : byPassword cfg info = some a ↔
    (a = .control ∧ ControlUser cfg info) ∨
    (a = .restricted ∧ ¬ ControlUser cfg info ∧ RestrictedUser cfg info) ∨
    (a = .add ∧ ¬ ControlUser cfg info ∧ ¬ RestrictedUser cfg info ∧ AddUser cfg info) := by
  have c1 : ControlUser cfg info ↔ (cfg.controlUsername = [] ∨ info.takeWhile (· != 58) = cfg.controlUsername) ∧
      (if 58 ∈ info then some ((info.dropWhile (· != 58)).drop 1) else none) = some cfg.controlPassword := by
    unfold ControlUser
    simp only [userPass_iff]
    by_cases hm : 58 ∈ info
    · rw [if_pos hm]
      constructor
      · rintro ⟨u, p, ⟨-, rfl, rfl⟩, h, h'⟩; exact ⟨h, by rw [h']⟩
      · rintro ⟨h, h'⟩; injection h' with h'; exact ⟨_, _, ⟨hm, rfl, rfl⟩, h, h'⟩
    · rw [if_neg hm]; simp [hm]
  have c2 : RestrictedUser cfg info ↔ cfg.restrictedUsername ≠ [] ∧ info.takeWhile (· != 58) = cfg.restrictedUsername ∧
      (if 58 ∈ info then some ((info.dropWhile (· != 58)).drop 1) else none) = some cfg.restrictedPassword := by
    unfold RestrictedUser
    simp only [userPass_iff]
    by_cases hm : 58 ∈ info
    · rw [if_pos hm]
      constructor
      · rintro ⟨u, p, ⟨-, rfl, rfl⟩, h, h', h''⟩; exact ⟨h, h', by rw [h'']⟩
      · rintro ⟨h, h', h''⟩; injection h'' with h''; exact ⟨_, _, ⟨hm, rfl, rfl⟩, h, h', h''⟩
    · rw [if_neg hm]; simp [hm]
  have c3 : AddUser cfg info ↔ cfg.addUsername ≠ [] ∧ info.takeWhile (· != 58) = cfg.addUsername ∧
      (if 58 ∈ info then some ((info.dropWhile (· != 58)).drop 1) else none) = some cfg.addPassword := by
    unfold AddUser
    simp only [userPass_iff]
    by_cases hm : 58 ∈ info
    · rw [if_pos hm]
      constructor
      · rintro ⟨u, p, ⟨-, rfl, rfl⟩, h, h', h''⟩; exact ⟨h, h', by rw [h'']⟩
      · rintro ⟨h, h', h''⟩; injection h'' with h''; exact ⟨_, _, ⟨hm, rfl, rfl⟩, h, h', h''⟩
    · rw [if_neg hm]; simp [hm]
  unfold byPassword
  dsimp only
  by_cases p1 : ControlUser cfg info
  · rw [if_pos (c1.mp p1)]
    constructor
    · intro h; injection h with h; exact Or.inl ⟨h.symm, p1⟩
    · rintro (⟨rfl, -⟩ | ⟨-, h, -⟩ | ⟨-, h, -⟩)
      · rfl
      · exact absurd p1 h
      · exact absurd p1 h
  · rw [if_neg (fun h => p1 (c1.mpr h))]
    by_cases p2 : RestrictedUser cfg info
    · rw [if_pos (c2.mp p2)]
      constructor
      · intro h; injection h with h; exact Or.inr (Or.inl ⟨h.symm, p1, p2⟩)
      · rintro (⟨-, h⟩ | ⟨rfl, -⟩ | ⟨-, -, h, -⟩)
        · exact absurd h p1
        · rfl
        · exact absurd p2 h
    · rw [if_neg (fun h => p2 (c2.mpr h))]
      by_cases p3 : AddUser cfg info
      · rw [if_pos (c3.mp p3)]
        constructor
        · intro h; injection h with h; exact Or.inr (Or.inr ⟨h.symm, p1, p2, p3⟩)
        · rintro (⟨-, h⟩ | ⟨-, -, h⟩ | ⟨rfl, -⟩)
          · exact absurd h p1
          · exact absurd h p2
          · rfl
      · rw [if_neg (fun h => p3 (c3.mpr h))]
        constructor
        · intro h; exact nomatch h
        · rintro (⟨-, h⟩ | ⟨-, -, h⟩ | ⟨-, -, -, h⟩)
          · exact absurd h p1
          · exact absurd h p2
          · exact absurd h p3

theorem byToken_eq (cfg : Config) (ht : ∀ a b, cfg.token a = cfg.token b → a = b) (tok : Bytes) (a : Access) :
    byToken cfg tok = some a ↔ tok = cfg.token a := by
  unfold byToken
  by_cases h1 : tok = cfg.token .control
  · rw [if_pos h1]
    constructor
    · intro h; injection h with h; rw [← h]; exact h1
    · intro h; rw [ht _ _ (h1.symm.trans h)]
  · rw [if_neg h1]
    by_cases h2 : tok = cfg.token .restricted
    · rw [if_pos h2]
      constructor
      · intro h; injection h with h; rw [← h]; exact h2
      · intro h; rw [ht _ _ (h2.symm.trans h)]
    · rw [if_neg h2]
      by_cases h3 : tok = cfg.token .add
      · rw [if_pos h3]
        constructor
        · intro h; injection h with h; rw [← h]; exact h3
        · intro h; rw [ht _ _ (h3.symm.trans h)]
      · rw [if_neg h3]
        constructor
        · intro h; exact nomatch h
        · intro h; cases a
          · exact absurd h h1
          · exact absurd h h2
          · exact absurd h h3

theorem authorized_iff (ips remote : Bytes) : isAuthorizedIp ips remote = true ↔
    ∃ m, IpEntry ips m ∧ WildMask.Glob m remote := by
  unfold isAuthorizedIp IpEntry
  rw [List.any_eq_true]
  constructor
  · rintro ⟨m, h1, h2⟩
    exact ⟨m, (Tokens.mem_tokens _ _ _).mp h1, (WildMask.matches_iff _ _).mp h2⟩
  · rintro ⟨m, h1, h2⟩
    exact ⟨m, (Tokens.mem_tokens _ _ _).mpr h1, (WildMask.matches_iff _ _).mpr h2⟩

theorem ipEntry_nil (m : Bytes) : ¬ IpEntry [] m := by
  intro h
  have := (Tokens.mem_tokens _ _ _).mpr h
  exact nomatch this

/-- **C37.** The access of a client is exactly the one it has credentials for. The session tokens are
different from each other. -/
theorem access_iff (cfg : Config) (ht : ∀ a b, cfg.token a = cfg.token b → a = b) (remote : Bytes) (h : Hdr)
    (a : Access) : checkCredentials cfg remote h = some a ↔ Granted cfg remote h.authInfo h.authToken a := by
  have hu : (cfg.controlPassword ≠ [] ∧ ¬ (cfg.authorizedIp ≠ [] ∧ isAuthorizedIp cfg.authorizedIp remote = true)) ↔
      ¬ Unchecked cfg remote := by
    unfold Unchecked
    rw [authorized_iff]
    constructor
    · rintro ⟨h1, h2⟩ (h3 | h3)
      · exact h1 h3
      · by_cases he : cfg.authorizedIp = []
        · obtain ⟨m, hm, -⟩ := h3; rw [he] at hm; exact ipEntry_nil m hm
        · exact h2 ⟨he, h3⟩
    · intro h1
      exact ⟨fun h2 => h1 (Or.inl h2), fun h2 => h1 (Or.inr h2.2)⟩
  unfold checkCredentials
  by_cases hx : Unchecked cfg remote
  · rw [if_neg (fun h => hu.mp h hx)]
    constructor
    · intro h; injection h with h; rw [← h]; exact .unchecked hx
    · intro h
      cases h with
      | unchecked => rfl
      | token _ h => exact absurd hx h
      | control h => exact absurd hx h
      | restricted h => exact absurd hx h
      | add h => exact absurd hx h
  · rw [if_pos (hu.mpr hx)]
    have noinfo : h.authInfo = [] → ∀ u p, ¬ UserPass h.authInfo u p := by
      intro e u p hp
      have := hp.1
      rw [e] at this
      simp at this
    by_cases hi : h.authInfo = []
    · rw [if_pos hi, byToken_eq cfg ht]
      constructor
      · intro h'; exact .token a hx hi h'
      · intro h'
        cases h' with
        | unchecked h => exact absurd h hx
        | token _ _ _ h => exact h
        | control _ h => obtain ⟨u, p, h, -⟩ := h; exact absurd h (noinfo hi u p)
        | restricted _ _ h => obtain ⟨u, p, h, -⟩ := h; exact absurd h (noinfo hi u p)
        | add _ _ _ h => obtain ⟨u, p, h, -⟩ := h; exact absurd h (noinfo hi u p)
    · rw [if_neg hi, byPassword_eq]
      constructor
      · rintro (⟨rfl, h1⟩ | ⟨rfl, h1, h2⟩ | ⟨rfl, h1, h2, h3⟩)
        · exact .control hx h1
        · exact .restricted hx h1 h2
        · exact .add hx h1 h2 h3
      · intro h'
        cases h' with
        | unchecked h => exact absurd h hx
        | token _ _ h _ => exact absurd h hi
        | control _ h => exact Or.inl ⟨rfl, h⟩
        | restricted _ h1 h2 => exact Or.inr (Or.inl ⟨rfl, h1, h2⟩)
        | add _ h1 h2 h3 => exact Or.inr (Or.inr ⟨rfl, h1, h2, h3⟩)

/-- A configuration with passwords and an authorised network, and three different tokens. -/
def sampleConfig : Config :=
  { controlUsername := lit "admin", controlPassword := lit "secret", restrictedUsername := lit "guest",
    restrictedPassword := lit "", addUsername := lit "bot", addPassword := lit "b:t",
    authorizedIp := lit "10.0.0.*; 127.0.0.1", webDir := lit "/web",
    token := fun a => match a with | .control => lit "C" | .restricted => lit "R" | .add => lit "A" }

example : ∀ a b, sampleConfig.token a = sampleConfig.token b → a = b := by
  intro a b; cases a <;> cases b <;> decide
example : checkCredentials sampleConfig (lit "10.0.0.17") {} = some .control := by decide +kernel
example : checkCredentials sampleConfig (lit "10.0.1.17") {} = none := by decide +kernel
example : checkCredentials sampleConfig (lit "8.8.8.8") { authInfo := lit "bot:b:t" } = some .add := by decide +kernel
example : checkCredentials sampleConfig (lit "8.8.8.8") { authInfo := lit "guest:" } = some .restricted := by decide +kernel
example : checkCredentials sampleConfig (lit "8.8.8.8") { authInfo := lit "guest" } = none := by decide +kernel

end Verif.WebAccess
