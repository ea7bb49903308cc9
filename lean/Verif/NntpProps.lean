import Verif.Nntp
/-! C117: the dialogue with a news server. -/
namespace Verif.Nntp
open CStr

/-! ### Specification -/

/-- The server has accepted the user: it says 281 to the name or 2xx to the password. -/
def Accepts (cfg : Cfg) (l a : Bytes) : Prop :=
  (l = userLine cfg ∧ startsWith (lit "281") a = true) ∨ (l = passLine cfg ∧ startsWith (lit "2") a = true)

/-- A dialogue in which the user is authorised: only names and passwords are sent, the server accepts the last of them. -/
def Login (cfg : Cfg) (evs : List Ev) : Prop :=
  ∃ pre l a, evs = pre ++ [Ev.line l (some a)] ∧ Accepts cfg l a ∧ ∀ e ∈ pre, ∃ b, e = .line (userLine cfg) b ∨ e = .line (passLine cfg) b

/-- The server has changed to the group `g`, and to no other one since then. -/
def Joined (log : List Ev) (g : Bytes) : Prop :=
  ∃ pre a post, log = pre ++ Ev.line (groupLine g) (some a) :: post ∧ startsWith (lit "2") a = true ∧
    ∀ l b, Ev.line l (some b) ∈ post → startsWith (lit "2") b = true → ¬ ∃ h, l = groupLine h

/-! ### Sending a line -/

theorem await_log (mk : Option Bytes → Ev) (st : St) :
    (st.status ≠ .connected ∧ await mk st = (none, st)) ∨
    (st.status = .connected ∧ (await mk st).2.log = st.log ++ [mk (await mk st).1] ∧ (await mk st).2.group = st.group ∧ (await mk st).2.authError = st.authError ∧
      ((await mk st).1.isSome = true → (await mk st).2.status = .connected)) := by
  unfold await
  by_cases h : st.status = .connected
  · refine Or.inr ⟨h, ?_⟩
    rw [if_neg (by simp [h])]
    split <;> exact ⟨rfl, rfl, rfl, fun q => by first | exact h | exact nomatch q⟩
  · exact Or.inl ⟨h, by rw [if_pos h]⟩

theorem say_some {l : Bytes} {st st' : St} {a : Bytes} (h : say l st = (some a, st')) :
    st.status = .connected ∧ st'.status = .connected ∧ st'.log = st.log ++ [.line l (some a)] ∧ st'.group = st.group ∧ st'.authError = st.authError := by
  unfold say at h
  rcases await_log (.line l) st with ⟨_, h2⟩ | ⟨h1, h2, h3, h4, h5⟩
  · rw [h2] at h; exact nomatch h
  · rw [h] at h2 h3 h4 h5
    exact ⟨h1, h5 rfl, h2, h3, h4⟩

theorem say_log (l : Bytes) (st : St) : ∃ evs, (say l st).2.log = st.log ++ evs ∧ (say l st).2.group = st.group ∧ evs.length ≤ 1 ∧ ∀ e ∈ evs, e = .line l (say l st).1 := by
  unfold say
  rcases await_log (.line l) st with ⟨_, h2⟩ | ⟨_, h2, h3, _⟩
  · rw [h2]; exact ⟨[], (List.append_nil _).symm, rfl, Nat.zero_le _, (fun _ h => nomatch h)⟩
  · exact ⟨[.line l (await (.line l) st).1], h2, h3, Nat.le_refl _, fun e he => List.mem_singleton.1 he⟩

theorem say_env (l : Bytes) (st : St) : ∃ d, st.env = d ++ (say l st).2.env := by
  unfold say await
  split
  · exact ⟨[], rfl⟩
  · split
    · next h => exact ⟨[], by simp⟩
    · next a e h => exact ⟨[_], by rw [h]; rfl⟩
    · next e h => exact ⟨[_], by rw [h]; rfl⟩
    · next e h => exact ⟨[_], by rw [h]; rfl⟩
    · next e h => exact ⟨[_], by rw [h]; rfl⟩

theorem auth_user (cfg : Cfg) (n : Nat) (st : St) : auth cfg (n + 1) false st =
    match say (userLine cfg) st with
    | (none, st) => (false, st)
    | (some a, st) =>
      if startsWith (lit "281") a then (true, st)
      else if startsWith (lit "381") a then auth cfg n true st
      else if startsWith (lit "480") a then auth cfg n false st
      else (false, st) := by rw [auth]; rfl

theorem auth_pass (cfg : Cfg) (n : Nat) (st : St) : auth cfg (n + 1) true st =
    match say (passLine cfg) st with
    | (none, st) => (false, st)
    | (some a, st) =>
      if startsWith (lit "2") a then (true, st)
      else if startsWith (lit "381") a then auth cfg n true st
      else (false, st) := by rw [auth]; rfl

/-! ### Authorisation -/

theorem auth_ok (cfg : Cfg) : ∀ (n : Nat) (p : Bool) (st st' : St), auth cfg n p st = (true, st') →
    st'.status = .connected ∧ st'.group = st.group ∧ ∃ evs, st'.log = st.log ++ evs ∧ Login cfg evs := by
  intro n
  induction n with
  | zero => intro p st st' h; unfold auth at h; exact nomatch h
  | succ n ih =>
    have step : ∀ (q : Bool) (l a : Bytes) (st st1 st' : St), (l = userLine cfg ∨ l = passLine cfg) → say l st = (some a, st1) → auth cfg n q st1 = (true, st') →
        st'.status = .connected ∧ st'.group = st.group ∧ ∃ evs, st'.log = st.log ++ evs ∧ Login cfg evs := by
      intro q l a st st1 st' hl hs h
      obtain ⟨_, _, s3, s4, _⟩ := say_some hs
      obtain ⟨g1, g2, evs, g3, pre, l2, a2, g4, g5, g6⟩ := ih q st1 st' h
      refine ⟨g1, g2.trans s4, .line l (some a) :: evs, by rw [g3, s3, List.append_assoc]; rfl, .line l (some a) :: pre, l2, a2, by rw [g4]; rfl, g5, fun e he => ?_⟩
      rcases List.mem_cons.1 he with rfl | he
      · rcases hl with rfl | rfl
        · exact ⟨some a, Or.inl rfl⟩
        · exact ⟨some a, Or.inr rfl⟩
      · exact g6 e he
    have done : ∀ (l a : Bytes) (st st1 : St), say l st = (some a, st1) → Accepts cfg l a →
        st1.status = .connected ∧ st1.group = st.group ∧ ∃ evs, st1.log = st.log ++ evs ∧ Login cfg evs := by
      intro l a st st1 hs hacc
      obtain ⟨_, s2, s3, s4, _⟩ := say_some hs
      exact ⟨s2, s4, [.line l (some a)], s3, [], l, a, rfl, hacc, (fun _ h => nomatch h)⟩
    intro p st st' h
    cases p with
    | false =>
      rw [auth_user] at h
      generalize hs : say (userLine cfg) st = r at h
      obtain ⟨r, st1⟩ := r
      cases r with
      | none => exact nomatch h
      | some a =>
        dsimp only at h
        split at h
        · next ha =>
          obtain ⟨_, rfl⟩ := Prod.mk.inj h
          exact done _ a st st1 hs (Or.inl ⟨rfl, ha⟩)
        · split at h
          · exact step true _ a st st1 st' (Or.inl rfl) hs h
          · split at h
            · exact step false _ a st st1 st' (Or.inl rfl) hs h
            · exact nomatch h
    | true =>
      rw [auth_pass] at h
      generalize hs : say (passLine cfg) st = r at h
      obtain ⟨r, st1⟩ := r
      cases r with
      | none => exact nomatch h
      | some a =>
        dsimp only at h
        split at h
        · next ha =>
          obtain ⟨_, rfl⟩ := Prod.mk.inj h
          exact done _ a st st1 hs (Or.inr ⟨rfl, ha⟩)
        · split at h
          · exact step true _ a st st1 st' (Or.inr rfl) hs h
          · exact nomatch h

theorem user_ne_pass (cfg : Cfg) : userLine cfg ≠ passLine cfg := by
  unfold userLine passLine bstr
  intro h
  have := congrArg (fun l => l[9]?) h
  simp [lit] at this

/-- In this dialogue a password follows only an answer 381 (`first`: the line before was answered so). -/
def PassAsked (cfg : Cfg) (evs : List Ev) (first : Bool) : Prop :=
  ∀ pre post b, evs = pre ++ Ev.line (passLine cfg) b :: post → (pre = [] ∧ first = true) ∨ ∃ pre' l x, pre = pre' ++ [Ev.line l (some x)] ∧ startsWith (lit "381") x = true

theorem passAsked_cons (cfg : Cfg) (e : Ev) (evs : List Ev) (first q : Bool) (he : (∃ b, e = .line (passLine cfg) b) → first = true)
    (hq : q = true → ∃ l x, e = .line l (some x) ∧ startsWith (lit "381") x = true) (h : PassAsked cfg evs q) : PassAsked cfg (e :: evs) first := by
  intro pre post b hb
  cases pre with
  | nil =>
    obtain ⟨h1, _⟩ := List.cons.inj hb
    exact Or.inl ⟨rfl, he ⟨b, h1⟩⟩
  | cons x pre =>
    obtain ⟨rfl, h2⟩ := List.cons.inj hb
    rcases h pre post b h2 with ⟨rfl, hqt⟩ | ⟨pre', l, y, rfl, hy⟩
    · obtain ⟨l, y, rfl, hy⟩ := hq hqt
      exact Or.inr ⟨[], l, y, rfl, hy⟩
    · exact Or.inr ⟨e :: pre', l, y, rfl, hy⟩

theorem auth_lines (cfg : Cfg) : ∀ (n : Nat) (p : Bool) (st : St), ∃ evs, (auth cfg n p st).2.log = st.log ++ evs ∧ (auth cfg n p st).2.group = st.group ∧ evs.length ≤ n ∧
    (∀ e ∈ evs, ∃ b, e = .line (userLine cfg) b ∨ e = .line (passLine cfg) b) ∧ PassAsked cfg evs p := by
  have hnil : ∀ q, PassAsked cfg [] q := by
    intro q pre post b h
    cases pre <;> exact nomatch h
  intro n
  induction n with
  | zero =>
    intro p st
    exact ⟨[], by unfold auth; simp, by unfold auth; rfl, Nat.le_refl _, (fun _ h => nomatch h), hnil p⟩
  | succ n ih =>
    have stop : ∀ (l : Bytes) (p : Bool) (st st1 : St) (r : Option Bytes), (l = userLine cfg ∨ (l = passLine cfg ∧ p = true)) → say l st = (r, st1) →
        ∃ evs, st1.log = st.log ++ evs ∧ st1.group = st.group ∧ evs.length ≤ n + 1 ∧ (∀ e ∈ evs, ∃ b, e = .line (userLine cfg) b ∨ e = .line (passLine cfg) b) ∧ PassAsked cfg evs p := by
      intro l p st st1 r hl hs
      obtain ⟨evs, g1, g2, g3, g4⟩ := say_log l st
      rw [hs] at g1 g2 g4
      refine ⟨evs, g1, g2, by omega, fun e he => ?_, ?_⟩
      · rw [g4 e he]
        rcases hl with rfl | ⟨rfl, _⟩
        · exact ⟨_, Or.inl rfl⟩
        · exact ⟨_, Or.inr rfl⟩
      · match evs, g3, g4 with
        | [], _, _ => exact hnil p
        | [e], _, g4 =>
          refine passAsked_cons cfg e [] p false ?_ (fun h => nomatch h) (hnil _)
          rintro ⟨b, hb⟩
          rw [g4 e List.mem_cons_self] at hb
          rcases hl with rfl | ⟨_, hp⟩
          · exact absurd (Ev.line.inj hb).1 (user_ne_pass cfg)
          · exact hp
        | _ :: _ :: _, g3, _ => simp at g3
    have go : ∀ (l : Bytes) (p q : Bool) (st st1 : St) (a : Bytes), (l = userLine cfg ∨ (l = passLine cfg ∧ p = true)) → say l st = (some a, st1) → (q = true → startsWith (lit "381") a = true) →
        ∃ evs, (auth cfg n q st1).2.log = st.log ++ evs ∧ (auth cfg n q st1).2.group = st.group ∧ evs.length ≤ n + 1 ∧
          (∀ e ∈ evs, ∃ b, e = .line (userLine cfg) b ∨ e = .line (passLine cfg) b) ∧ PassAsked cfg evs p := by
      intro l p q st st1 a hl hs hq
      obtain ⟨_, _, s3, s4, _⟩ := say_some hs
      obtain ⟨evs, g1, g2, g3, g4, g5⟩ := ih q st1
      refine ⟨.line l (some a) :: evs, by rw [g1, s3, List.append_assoc]; rfl, g2.trans s4, by rw [List.length_cons]; omega, fun e he => ?_, ?_⟩
      · rcases List.mem_cons.1 he with rfl | he
        · rcases hl with rfl | ⟨rfl, _⟩
          · exact ⟨_, Or.inl rfl⟩
          · exact ⟨_, Or.inr rfl⟩
        · exact g4 e he
      · refine passAsked_cons cfg _ evs p q ?_ (fun h => ⟨l, a, rfl, hq h⟩) g5
        rintro ⟨b, hb⟩
        rcases hl with rfl | ⟨_, hp⟩
        · exact absurd (Ev.line.inj hb).1 (user_ne_pass cfg)
        · exact hp
    intro p st
    cases p with
    | false =>
      rw [auth_user]
      generalize hs : say (userLine cfg) st = r
      obtain ⟨r, st1⟩ := r
      cases r with
      | none => exact stop _ false st st1 _ (Or.inl rfl) hs
      | some a =>
        dsimp only
        split
        · exact stop _ false st st1 _ (Or.inl rfl) hs
        · split
          · next h => exact go _ false true st st1 a (Or.inl rfl) hs (fun _ => h)
          · split
            · exact go _ false false st st1 a (Or.inl rfl) hs (fun h => nomatch h)
            · exact stop _ false st st1 _ (Or.inl rfl) hs
    | true =>
      rw [auth_pass]
      generalize hs : say (passLine cfg) st = r
      obtain ⟨r, st1⟩ := r
      cases r with
      | none => exact stop _ true st st1 _ (Or.inr ⟨rfl, rfl⟩) hs
      | some a =>
        dsimp only
        split
        · exact stop _ true st st1 _ (Or.inr ⟨rfl, rfl⟩) hs
        · split
          · next h => exact go _ true true st st1 a (Or.inr ⟨rfl, rfl⟩) hs (fun _ => h)
          · exact stop _ true st st1 _ (Or.inr ⟨rfl, rfl⟩) hs

/-- C117: whatever the server answers, authorisation ends after at most eleven lines, all of which are the name or the password; the password is sent only after the server has asked for it. -/
theorem auth_bounded (cfg : Cfg) (st : St) : ∃ evs, (authenticate cfg st).2.log = st.log ++ evs ∧ evs.length ≤ 11 ∧
    (∀ e ∈ evs, ∃ b, e = .line (userLine cfg) b ∨ e = .line (passLine cfg) b) ∧
    ∀ pre post b, evs = pre ++ Ev.line (passLine cfg) b :: post → ∃ pre' l x, pre = pre' ++ [Ev.line l (some x)] ∧ startsWith (lit "381") x = true := by
  unfold authenticate
  split
  · exact ⟨[], (List.append_nil _).symm, Nat.zero_le _, (fun _ h => nomatch h), fun pre post b h => by cases pre <;> exact nomatch h⟩
  · obtain ⟨evs, g1, _, g3, g4, g5⟩ := auth_lines cfg 11 false st
    refine ⟨evs, g1, g3, g4, fun pre post b h => ?_⟩
    rcases g5 pre post b h with ⟨_, h⟩ | h
    · exact nomatch h
    · exact h

theorem authenticate_ok (cfg : Cfg) (st st' : St) (h : authenticate cfg st = (true, st')) :
    cfg.user ≠ [] ∧ cfg.pass ≠ [] ∧ st'.status = .connected ∧ st'.group = st.group ∧ st'.authError = false ∧ ∃ evs, st'.log = st.log ++ evs ∧ Login cfg evs := by
  unfold authenticate at h
  split at h
  · exact nomatch h
  · next hc =>
    dsimp only at h
    obtain ⟨h1, h2⟩ := Prod.mk.inj h
    generalize hr : auth cfg 11 false st = r at h1 h2
    obtain ⟨b, st1⟩ := r
    dsimp only at h1 h2
    subst h1
    obtain ⟨g1, g2, g3⟩ := auth_ok cfg 11 false st st1 hr
    subst h2
    exact ⟨fun h => hc (Or.inl h), fun h => hc (Or.inr h), g1, g2, rfl, g3⟩

theorem authenticate_group (cfg : Cfg) (st : St) : (authenticate cfg st).2.group = st.group := by
  unfold authenticate
  split
  · rfl
  · obtain ⟨_, _, g2, _⟩ := auth_lines cfg 11 false st
    exact g2

/-! ### Connecting -/

/-- C117: a connection is established only if the server greets with 2xx and, if there are a name and a password, has accepted them. Without these nothing but the greeting is exchanged. -/
theorem connect_authorised (cfg : Cfg) (opened : Bool) (st st' : St) (hs : st.status ≠ .connected) (h : connect cfg opened st = (true, st')) :
    st'.status = .connected ∧ ∃ a, startsWith (lit "2") a = true ∧
      (cfg.user ≠ [] ∧ cfg.pass ≠ [] → ∃ evs, st'.log = .greeting (some a) :: evs ∧ Login cfg evs) ∧ (cfg.user = [] ∨ cfg.pass = [] → st'.log = [.greeting (some a)]) := by
  unfold connect at h
  rw [if_neg hs] at h
  split at h
  · exact nomatch h
  · rcases await_log .greeting { st with status := .connected, log := [] } with ⟨h1, _⟩ | ⟨_, h2, h3, _, h5⟩
    · exact absurd rfl h1
    · generalize await .greeting { st with status := .connected, log := [] } = r at h h2 h3 h5
      obtain ⟨r, st1⟩ := r
      cases r with
      | none => exact nomatch h
      | some a =>
        have hst1 := h5 rfl
        dsimp only at h h2 h3 hst1
        split at h
        · exact nomatch h
        · next ha =>
          have ha : startsWith (lit "2") a = true := by simpa using ha
          split at h
          · next hc =>
            obtain ⟨_, _, g3, _, _, evs, g5, g6⟩ := authenticate_ok cfg st1 st' h
            refine ⟨g3, a, ha, fun _ => ⟨evs, by rw [g5, h2]; rfl, g6⟩, fun hn => ?_⟩
            rcases hn with hn | hn
            · exact absurd hn hc.1
            · exact absurd hn hc.2
          · next hc =>
            obtain ⟨_, rfl⟩ := Prod.mk.inj h
            exact ⟨hst1, a, ha, fun hn => absurd hn hc, fun _ => h2⟩

/-- C117 (refutes `established means authorised` for a second attempt): if the authorisation fails, the connection stays open, and the next attempt to connect succeeds without it. The
program always disconnects in between (ArticleDownloader.cpp:189, 577-580). -/
theorem second_connect (cfg : Cfg) (hc : cfg.user ≠ [] ∧ cfg.pass ≠ []) (opened2 : Bool) (st : St) (hs : st.status ≠ .connected) (hello no : Bytes) (rest : List Reply)
    (he : st.env = .answer hello :: .answer no :: rest) (hh : startsWith (lit "2") hello = true)
    (hn : startsWith (lit "281") no = false ∧ startsWith (lit "381") no = false ∧ startsWith (lit "480") no = false) :
    ∃ st', connect cfg true st = (false, st') ∧ connect cfg opened2 st' = (true, st') := by
  have hno : ¬ (cfg.user = [] ∨ cfg.pass = []) := by
    rintro (h | h)
    · exact hc.1 h
    · exact hc.2 h
  refine ⟨⟨.connected, st.group, true, [.greeting (some hello), .line (userLine cfg) (some no)], rest⟩, ?_, ?_⟩
  · unfold connect
    rw [if_neg hs, Bool.not_true, if_neg Bool.false_ne_true]
    unfold await
    dsimp only
    rw [if_neg (by simp), he]
    dsimp only
    rw [hh, Bool.not_true, if_neg Bool.false_ne_true, if_pos hc]
    unfold authenticate
    rw [if_neg hno, auth_user]
    unfold say await
    dsimp only
    rw [if_neg (by simp)]
    dsimp only
    rw [hn.1, hn.2.1, hn.2.2]
    rfl
  · unfold connect
    rw [if_pos rfl]

/-! ### Requests -/

/-- C117: an answer to a request is the server's answer to the line sent last, which is the request. Between a first attempt, answered with 480, and the second one the user is authorised. -/
theorem request_answer (cfg : Cfg) (req : Bytes) (st st' : St) (a : Bytes) (h : request cfg req st = (some a, st')) :
    st'.status = .connected ∧ st'.group = st.group ∧ st'.authError = false ∧
      ((startsWith (lit "480") a = false ∧ st'.log = st.log ++ [.line req (some a)]) ∨
       ∃ b evs, startsWith (lit "480") b = true ∧ Login cfg evs ∧ st'.log = st.log ++ .line req (some b) :: (evs ++ [.line req (some a)])) := by
  unfold request at h
  generalize hs : say req { st with authError := false } = r at h
  obtain ⟨r, st1⟩ := r
  cases r with
  | none => exact nomatch h
  | some b =>
    obtain ⟨_, s2, s3, s4, s5⟩ := say_some hs
    dsimp only at h s3 s4 s5
    split at h
    · next hb =>
      generalize hau : authenticate cfg st1 = q at h
      obtain ⟨q, st2⟩ := q
      cases q with
      | false => exact nomatch h
      | true =>
        obtain ⟨_, _, _, g4, g5, evs, g6, g7⟩ := authenticate_ok cfg st1 st2 hau
        dsimp only at h
        obtain ⟨_, t2, t3, t4, t5⟩ := say_some h
        refine ⟨t2, by rw [t4, g4, s4], by rw [t5, g5], Or.inr ⟨b, evs, hb, g7, ?_⟩⟩
        rw [t3, g6, s3, List.append_assoc, List.append_assoc]
        rfl
    · next hb =>
      obtain ⟨e1, rfl⟩ := Prod.mk.inj h
      obtain rfl := Option.some.inj e1
      exact ⟨s2, s4, s5, Or.inl ⟨by simpa using hb, s3⟩⟩

/-- C117: without name or password neither is ever sent. -/
theorem no_credentials (cfg : Cfg) (hc : cfg.user = [] ∨ cfg.pass = []) (req : Bytes) (st : St) :
    ∃ evs, (request cfg req st).2.log = st.log ++ evs ∧ evs.length ≤ 1 ∧ ∀ e ∈ evs, ∃ a, e = .line req a := by
  obtain ⟨evs, g1, _, g3, g4⟩ := say_log req { st with authError := false }
  unfold request
  generalize hs : say req { st with authError := false } = r at g1 g4
  obtain ⟨r, st1⟩ := r
  cases r with
  | none => exact ⟨evs, g1, g3, fun e he => ⟨_, g4 e he⟩⟩
  | some b =>
    dsimp only
    split
    · unfold authenticate
      rw [if_pos hc]
      exact ⟨evs, g1, g3, fun e he => ⟨_, g4 e he⟩⟩
    · exact ⟨evs, g1, g3, fun e he => ⟨_, g4 e he⟩⟩

theorem request_group (cfg : Cfg) (req : Bytes) (st : St) : (request cfg req st).2.group = st.group := by
  obtain ⟨_, _, g2, _⟩ := say_log req { st with authError := false }
  unfold request
  generalize hs : say req { st with authError := false } = r at g2
  obtain ⟨r, st1⟩ := r
  cases r with
  | none => exact g2
  | some b =>
    dsimp only
    split
    · have hg := authenticate_group cfg st1
      generalize authenticate cfg st1 = q at hg
      obtain ⟨q, st2⟩ := q
      cases q with
      | false => exact hg.trans g2
      | true =>
        obtain ⟨_, _, k2, _⟩ := say_log req st2
        exact k2.trans (hg.trans g2)
    · exact g2

theorem request_lines (cfg : Cfg) (req : Bytes) (st : St) : ∃ evs, (request cfg req st).2.log = st.log ++ evs ∧
    ∀ l b, Ev.line l (some b) ∈ evs → (l = req ∧ (startsWith (lit "480") b = true ∨ (request cfg req st).1 = some b)) ∨ l = userLine cfg ∨ l = passLine cfg := by
  obtain ⟨evs, g1, _, _, g4⟩ := say_log req { st with authError := false }
  unfold request
  generalize hs : say req { st with authError := false } = r at g1 g4
  obtain ⟨r, st1⟩ := r
  dsimp only at g1 g4
  cases r with
  | none => exact ⟨evs, g1, fun l b he => nomatch (Ev.line.inj (g4 _ he)).2⟩
  | some c =>
    dsimp only
    have hc : ∀ l b, Ev.line l (some b) ∈ evs → l = req ∧ b = c := fun l b he => ⟨(Ev.line.inj (g4 _ he)).1, Option.some.inj (Ev.line.inj (g4 _ he)).2⟩
    by_cases h480 : startsWith (lit "480") c = true
    · rw [if_pos h480]
      obtain ⟨evs2, k1, _, k3, _⟩ := auth_bounded cfg st1
      generalize authenticate cfg st1 = q at k1
      obtain ⟨q, st2⟩ := q
      dsimp only at k1
      have base2 : ∀ l b, Ev.line l (some b) ∈ evs ++ evs2 → (l = req ∧ startsWith (lit "480") b = true) ∨ l = userLine cfg ∨ l = passLine cfg := by
        intro l b he
        rcases List.mem_append.1 he with he | he
        · obtain ⟨rfl, rfl⟩ := hc l b he
          exact Or.inl ⟨rfl, h480⟩
        · obtain ⟨b, h | h⟩ := k3 _ he
          · exact Or.inr (Or.inl (Ev.line.inj h).1)
          · exact Or.inr (Or.inr (Ev.line.inj h).1)
      have hlog : st2.log = st.log ++ (evs ++ evs2) := by rw [k1, g1, List.append_assoc]
      cases q with
      | false =>
        refine ⟨evs ++ evs2, hlog, fun l b he => ?_⟩
        rcases base2 l b he with ⟨h1, h2⟩ | h
        · exact Or.inl ⟨h1, Or.inl h2⟩
        · exact Or.inr h
      | true =>
        obtain ⟨evs3, m1, _, _, m4⟩ := say_log req st2
        refine ⟨evs ++ evs2 ++ evs3, by rw [m1, hlog, List.append_assoc], fun l b he => ?_⟩
        rcases List.mem_append.1 he with he | he
        · rcases base2 l b he with ⟨h1, h2⟩ | h
          · exact Or.inl ⟨h1, Or.inl h2⟩
          · exact Or.inr h
        · exact Or.inl ⟨(Ev.line.inj (m4 _ he)).1, Or.inr (Ev.line.inj (m4 _ he)).2.symm⟩
    · rw [if_neg h480]
      refine ⟨evs, g1, fun l b he => ?_⟩
      obtain ⟨rfl, rfl⟩ := hc l b he
      exact Or.inl ⟨rfl, Or.inr rfl⟩

/-! ### Groups -/

/-- What the program does with a connection. -/
inductive Op where
  | connect (opened : Bool)
  | disconnect
  | cancel
  | article (raw : Bool) (id : Bytes)
  | join (g : Bytes)
deriving DecidableEq, Repr

def Op.run (cfg : Cfg) (st : St) : Op → St
  | .connect o => (Nntp.connect cfg o st).2
  | .disconnect => Nntp.disconnect cfg st
  | .cancel => Nntp.cancel st
  | .article raw id => (request cfg (articleLine raw id) st).2
  | .join g => (joinGroup cfg g st).2

/-- A connection which was not used yet. -/
def fresh (env : List Reply) : St := ⟨.disconnected, [], false, [], env⟩

/-- No failure of the network. -/
def Calm (st : St) : Prop := ∀ r ∈ st.env, r ≠ .broken ∧ r ≠ .cancelled

theorem await_calm (mk : Option Bytes → Ev) (st : St) (h : Calm st) : Calm (await mk st).2 ∧ (await mk st).2.status = st.status := by
  unfold await
  split
  · exact ⟨h, rfl⟩
  · split
    · exact ⟨h, rfl⟩
    · next a e he => exact ⟨fun r hr => h r (by rw [he]; exact List.mem_cons_of_mem _ hr), rfl⟩
    · next e he => exact ⟨fun r hr => h r (by rw [he]; exact List.mem_cons_of_mem _ hr), rfl⟩
    · next e he => exact absurd rfl (h .broken (by rw [he]; exact List.mem_cons_self)).1
    · next e he => exact absurd rfl (h .cancelled (by rw [he]; exact List.mem_cons_self)).2

theorem auth_calm (cfg : Cfg) : ∀ (n : Nat) (p : Bool) (st : St), Calm st → Calm (auth cfg n p st).2 ∧ (auth cfg n p st).2.status = st.status := by
  intro n
  induction n with
  | zero => intro p st h; unfold auth; exact ⟨h, rfl⟩
  | succ n ih =>
    intro p st h
    have key : ∀ l, Calm (say l st).2 ∧ (say l st).2.status = st.status := fun l => await_calm _ st h
    cases p with
    | false =>
      rw [auth_user]
      have := key (userLine cfg)
      generalize say (userLine cfg) st = r at this
      obtain ⟨r, st1⟩ := r
      have k : ∀ q, Calm (auth cfg n q st1).2 ∧ (auth cfg n q st1).2.status = st.status := fun q => ⟨(ih q st1 this.1).1, (ih q st1 this.1).2.trans this.2⟩
      cases r with
      | none => exact this
      | some a =>
        dsimp only
        split
        · exact this
        · split
          · exact k true
          · split
            · exact k false
            · exact this
    | true =>
      rw [auth_pass]
      have := key (passLine cfg)
      generalize say (passLine cfg) st = r at this
      obtain ⟨r, st1⟩ := r
      have k : ∀ q, Calm (auth cfg n q st1).2 ∧ (auth cfg n q st1).2.status = st.status := fun q => ⟨(ih q st1 this.1).1, (ih q st1 this.1).2.trans this.2⟩
      cases r with
      | none => exact this
      | some a =>
        dsimp only
        split
        · exact this
        · split
          · exact k true
          · exact this

theorem authenticate_calm (cfg : Cfg) (st : St) (h : Calm st) : Calm (authenticate cfg st).2 ∧ (authenticate cfg st).2.status = st.status := by
  unfold authenticate
  split
  · exact ⟨h, rfl⟩
  · exact auth_calm cfg 11 false st h

theorem request_calm (cfg : Cfg) (req : Bytes) (st : St) (h : Calm st) : Calm (request cfg req st).2 ∧ (request cfg req st).2.status = st.status := by
  have h1 : Calm { st with authError := false } := h
  have := await_calm (.line req) _ h1
  unfold request say
  generalize await (.line req) { st with authError := false } = r at this
  obtain ⟨r, st1⟩ := r
  cases r with
  | none => exact this
  | some b =>
    dsimp only at this ⊢
    split
    · have h2 := authenticate_calm cfg st1 this.1
      generalize authenticate cfg st1 = q at h2
      obtain ⟨q, st2⟩ := q
      cases q with
      | false => exact ⟨h2.1, h2.2.trans this.2⟩
      | true =>
        have h3 := await_calm (.line req) st2 h2.1
        exact ⟨h3.1, h3.2.trans (h2.2.trans this.2)⟩
    · exact this

theorem group_ne (g : Bytes) (l : Bytes) (h : l[0]? ≠ some 71) : l ≠ groupLine g := by
  rintro rfl
  apply h
  unfold groupLine bstr
  simp [lit]

theorem not_group (cfg : Cfg) (raw : Bool) (id : Bytes) : ∀ l, (l = articleLine raw id ∨ l = lit "quit" ++ crlf) ∨ l = userLine cfg ∨ l = passLine cfg → ¬ ∃ h, l = groupLine h := by
  rintro l hl ⟨h, e⟩
  refine group_ne h l ?_ e
  rcases hl with (rfl | rfl) | rfl | rfl
  · unfold articleLine bstr
    cases raw <;> simp [lit]
  · decide
  · unfold userLine bstr; simp [lit]
  · unfold passLine bstr; simp [lit]

theorem joined_append {log : List Ev} {g : Bytes} (h : Joined log g) (evs : List Ev)
    (he : ∀ l b, Ev.line l (some b) ∈ evs → startsWith (lit "2") b = true → ¬ ∃ h, l = groupLine h) : Joined (log ++ evs) g := by
  obtain ⟨pre, a, post, h1, h2, h3⟩ := h
  refine ⟨pre, a, post ++ evs, by rw [h1, List.append_assoc]; rfl, h2, fun l b hm => ?_⟩
  rcases List.mem_append.1 hm with hm | hm
  · exact h3 l b hm
  · exact he l b hm

/-- The invariant: the group which the connection remembers is the group of the server. -/
def Inv (st : St) : Prop := Calm st ∧ (st.status = .connected ∨ st.status = .disconnected) ∧ (st.status = .disconnected → st.group = []) ∧ (st.group ≠ [] → Joined st.log st.group)

theorem two_not_480 (b : Bytes) (h : startsWith (lit "480") b = true) : ¬ startsWith (lit "2") b = true := by
  cases b with
  | nil => exact fun h => nomatch h
  | cons x b =>
    intro h2
    simp [startsWith, lit] at h h2
    rw [← h2] at h
    exact absurd h.1 (by decide)

theorem disconnect_inv (cfg : Cfg) (st : St) (hc : Calm st) (h : st.status = .disconnected → st.group = []) (hs : st.status = .connected ∨ st.status = .disconnected) :
    Inv (disconnect cfg st) := by
  unfold disconnect
  split
  · exact ⟨(request_calm cfg _ st hc).1, Or.inr rfl, fun _ => rfl, fun h => absurd rfl h⟩
  · next hn =>
    rcases hs with hs | hs
    · exact absurd hs hn
    · exact ⟨hc, Or.inr rfl, fun _ => h hs, fun hg => absurd (h hs) hg⟩

theorem step_inv (cfg : Cfg) (op : Op) (hop : op ≠ .cancel) (st : St) (h : Inv st) : Inv (op.run cfg st) := by
  obtain ⟨h1, h2, h3, h4⟩ := h
  cases op with
  | cancel => exact absurd rfl hop
  | disconnect => exact disconnect_inv cfg st h1 h3 h2
  | connect o =>
    show Inv (connect cfg o st).2
    unfold connect
    by_cases hc : st.status = .connected
    · rw [if_pos hc]; exact ⟨h1, h2, h3, h4⟩
    · rw [if_neg hc]
      have hd : st.status = .disconnected := by rcases h2 with h | h; exact absurd h hc; exact h
      have hg := h3 hd
      split
      · exact ⟨h1, Or.inr rfl, fun _ => hg, fun h => absurd hg h⟩
      · have hcalm : Calm { st with status := .connected, log := [] } := h1
        have k := await_calm .greeting _ hcalm
        have k2 : (await .greeting { st with status := .connected, log := [] }).2.group = [] := by
          rcases await_log .greeting { st with status := .connected, log := [] } with ⟨q, _⟩ | ⟨_, _, q, _⟩
          · exact absurd rfl q
          · exact q.trans hg
        generalize await .greeting { st with status := .connected, log := [] } = r at k k2
        obtain ⟨r, st1⟩ := r
        dsimp only at k k2
        cases r with
        | none => exact disconnect_inv cfg st1 k.1 (fun _ => k2) (Or.inl k.2)
        | some a =>
          dsimp only
          split
          · exact disconnect_inv cfg st1 k.1 (fun _ => k2) (Or.inl k.2)
          · split
            · have q := authenticate_calm cfg st1 k.1
              have q2 := (authenticate_group cfg st1).trans k2
              exact ⟨q.1, Or.inl (q.2.trans k.2), fun _ => q2, fun h => absurd q2 h⟩
            · exact ⟨k.1, Or.inl k.2, fun _ => k2, fun h => absurd k2 h⟩
  | article raw id =>
    show Inv (request cfg (articleLine raw id) st).2
    obtain ⟨q1, q2⟩ := request_calm cfg (articleLine raw id) st h1
    have q3 := request_group cfg (articleLine raw id) st
    obtain ⟨evs, q4, q5⟩ := request_lines cfg (articleLine raw id) st
    refine ⟨q1, by rw [q2]; exact h2, by rw [q2, q3]; exact h3, ?_⟩
    rw [q3, q4]
    intro hg
    refine joined_append (h4 hg) evs (fun l b he _ => not_group cfg raw id l ?_)
    rcases q5 l b he with h | h
    · exact Or.inl (Or.inl h.1)
    · exact Or.inr h
  | join g =>
    show Inv (joinGroup cfg g st).2
    unfold joinGroup
    split
    · exact ⟨h1, h2, h3, h4⟩
    · obtain ⟨q1, q2⟩ := request_calm cfg (groupLine g) st h1
      have q3 := request_group cfg (groupLine g) st
      obtain ⟨evs, q4, q5⟩ := request_lines cfg (groupLine g) st
      have q6 := request_answer cfg (groupLine g) st
      generalize request cfg (groupLine g) st = r at q1 q2 q3 q4 q5 q6
      obtain ⟨r, st1⟩ := r
      dsimp only at q1 q2 q3 q4 q5
      have keep : (∀ b, r = some b → ¬ startsWith (lit "2") b = true) → Inv st1 := by
        intro hr
        refine ⟨q1, by rw [q2]; exact h2, by rw [q2, q3]; exact h3, ?_⟩
        rw [q3, q4]
        intro hg
        refine joined_append (h4 hg) evs (fun l b he hb => ?_)
        rcases q5 l b he with ⟨_, h | h⟩ | h
        · exact absurd hb (two_not_480 b h)
        · exact absurd hb (hr b h)
        · exact not_group cfg false [] l (Or.inr h)
      cases r with
      | none => exact keep (fun _ h => nomatch h)
      | some a =>
        dsimp only
        split
        · next ha =>
          obtain ⟨t1, _, _, t4⟩ := q6 st1 a rfl
          refine ⟨q1, Or.inl t1, fun hd => ?_, fun _ => ?_⟩
          · have : st1.status = .disconnected := hd
            rw [t1] at this; exact nomatch this
          · rcases t4 with ⟨_, t4⟩ | ⟨b, evs, _, _, t4⟩
            · exact ⟨st.log, a, [], t4, ha, (fun _ _ h => nomatch h)⟩
            · exact ⟨st.log ++ .line (groupLine g) (some b) :: evs, a, [], by show st1.log = _; rw [t4]; simp, ha, (fun _ _ h => nomatch h)⟩
        · next ha => exact keep (fun b hb => by rw [← Option.some.inj hb]; exact ha)

theorem run_inv (cfg : Cfg) : ∀ (ops : List Op) (st : St), .cancel ∉ ops → Inv st → Inv (ops.foldl (Op.run cfg) st)
  | [], _, _, h => h
  | op :: ops, st, hc, h => by
    rw [List.foldl_cons]
    exact run_inv cfg ops _ (fun hm => hc (List.mem_cons_of_mem _ hm)) (step_inv cfg op (fun e => hc (by rw [e]; exact List.mem_cons_self)) st h)

/-- C117: as long as no connection fails or is cancelled: if the program believes to be in a group, the server has changed to this group. -/
theorem group_joined_partial (cfg : Cfg) (env : List Reply) (ops : List Op) (henv : ∀ r ∈ env, r ≠ .broken ∧ r ≠ .cancelled) (hops : .cancel ∉ ops) (g a : Bytes) (st' : St) (hg : g ≠ [])
    (h : joinGroup cfg g (ops.foldl (Op.run cfg) (fresh env)) = (some a, st')) (ha : startsWith (lit "2") a = true) : Joined st'.log g := by
  have inv := run_inv cfg (ops ++ [.join g]) (fresh env) (by simpa using hops) ⟨henv, Or.inr rfl, fun _ => rfl, fun h => absurd rfl h⟩
  rw [List.foldl_append] at inv
  generalize ops.foldl (Op.run cfg) (fresh env) = st at h inv
  have e : ([Op.join g].foldl (Op.run cfg) st) = st' := by show (joinGroup cfg g st).2 = st'; rw [h]
  rw [e] at inv
  have hgr : st'.group = g := by
    unfold joinGroup at h
    split at h
    · next hc =>
      obtain ⟨_, rfl⟩ := Prod.mk.inj h
      exact hc.2
    · split at h
      · exact nomatch h
      · split at h
        · obtain ⟨_, rfl⟩ := Prod.mk.inj h
          rfl
        · next hn =>
          obtain ⟨e1, _⟩ := Prod.mk.inj h
          rw [Option.some.inj e1] at hn
          exact absurd ha hn
  have := inv.2.2.2
  rw [hgr] at this
  exact this hg

/-- C117 (refutes): after a connection was lost or cancelled, the next connection is believed to be in the group, but the server was not told. -/
theorem stale_group (cfg : Cfg) (hn : cfg.user = [] ∨ cfg.pass = []) (st : St) (hs : st.status = .connected) (g : Bytes) (hg : st.group = g) (hne : g ≠ []) (raw : Bool) (id hello : Bytes)
    (hh : startsWith (lit "2") hello = true) (loss : Reply) (hl : loss = .broken ∨ loss = .cancelled) (rest : List Reply) (he : st.env = loss :: .answer hello :: rest) :
    let st' := [Op.article raw id, .disconnect, .connect true].foldl (Op.run cfg) st
    st'.status = .connected ∧ joinGroup cfg g st' = (some (lit "211 "), st') ∧ st'.log = [.greeting (some hello)] := by
  have h1 : ∃ s, (s = Status.broken ∨ s = Status.cancelled) ∧ (request cfg (articleLine raw id) st).2 =
      { st with status := s, authError := false, log := st.log ++ [.line (articleLine raw id) none], env := .answer hello :: rest } := by
    unfold request say await
    dsimp only
    rw [if_neg (by rw [hs]; simp), he]
    rcases hl with rfl | rfl
    · exact ⟨.broken, Or.inl rfl, rfl⟩
    · exact ⟨.cancelled, Or.inr rfl, rfl⟩
  obtain ⟨s, hsx, h1⟩ := h1
  have hsn : s ≠ .connected := by rcases hsx with rfl | rfl <;> exact (fun h => nomatch h)
  have h2 : [Op.article raw id, .disconnect, .connect true].foldl (Op.run cfg) st = ⟨.connected, st.group, false, [.greeting (some hello)], rest⟩ := by
    show (connect cfg true (disconnect cfg (request cfg (articleLine raw id) st).2)).2 = _
    rw [h1]
    unfold disconnect
    rw [if_neg (by exact hsn)]
    unfold connect shut await
    dsimp only
    rw [if_neg (fun h => nomatch h), Bool.not_true, if_neg Bool.false_ne_true, if_neg (by simp)]
    dsimp only
    rw [hh, Bool.not_true, if_neg Bool.false_ne_true, if_neg (by
      rintro ⟨h1, h2⟩
      rcases hn with h | h
      · exact h1 h
      · exact h2 h)]
    rfl
  dsimp only
  rw [h2]
  refine ⟨rfl, ?_, rfl⟩
  unfold joinGroup
  rw [if_pos ⟨by rw [hg]; exact hne, hg⟩]

/-- C117 (refutes): then an article is taken as missing on this server, if the server says that no group was selected. -/
theorem stale_not_found (cfg : Cfg) (g : Bytes) (gs : List Bytes) (hne : g ≠ []) (log : List Ev) (raw : Bool) (id : Bytes) (rest : List Reply) :
    (fetch cfg true (g :: gs) raw id ⟨.connected, g, false, log, .answer (lit "412 no group selected") :: rest⟩).1 = .notFound := by
  have hj : joinLoop cfg (g :: gs) none ⟨.connected, g, false, log, .answer (lit "412 no group selected") :: rest⟩ =
      (some (lit "211 "), ⟨.connected, g, false, log, .answer (lit "412 no group selected") :: rest⟩) := by
    rw [joinLoop]
    unfold joinGroup
    rw [if_pos ⟨hne, rfl⟩]
    dsimp only
    rw [if_pos (by decide)]
  unfold fetch
  rw [if_pos rfl, hj]
  dsimp only
  rw [if_neg (by rintro ⟨_, h⟩; exact h rfl)]
  unfold request say await
  dsimp only
  rw [if_neg (by simp)]
  dsimp only
  rw [if_neg (by decide)]
  rfl

/-- C117 (refutes): a file without groups cannot be fetched from a server which needs them; whatever the server answers, this counts as a failed connection, for which the server is
blocked (ArticleDownloader.cpp:166-180). -/
theorem no_groups (cfg : Cfg) (raw : Bool) (id : Bytes) (st : St) : fetch cfg true [] raw id st = (.connectError, st) := by
  unfold fetch
  rw [if_pos rfl]
  show (if true = true ∧ checkResponse st none ≠ Dl.ok then _ else _) = _
  rw [if_pos ⟨rfl, (fun h => nomatch h)⟩]
  rfl

/-! ### What is asked for -/

/-- C117: an article is taken as there only if the server says 2xx to the request for this article, as missing only if it says 41x, 42x or 43x. -/
theorem fetch_answer (cfg : Cfg) (groups : List Bytes) (raw : Bool) (id : Bytes) (st st' : St) (r : Dl) (h : fetch cfg false groups raw id st = (r, st')) (hr : r = .ok ∨ r = .notFound) :
    ∃ pre a, st'.log = pre ++ [.line (articleLine raw id) (some a)] ∧ (r = .ok → startsWith (lit "2") a = true) ∧
      (r = .notFound → startsWith (lit "41") a = true ∨ startsWith (lit "42") a = true ∨ startsWith (lit "43") a = true) := by
  unfold fetch at h
  rw [if_neg Bool.false_ne_true, if_neg (fun h => nomatch h.1)] at h
  dsimp only at h
  have q := request_answer cfg (articleLine raw id) st
  generalize request cfg (articleLine raw id) st = x at h q
  obtain ⟨x, st1⟩ := x
  obtain ⟨e1, rfl⟩ := Prod.mk.inj h
  dsimp only at e1
  cases x with
  | none => rw [← e1] at hr; rcases hr with h | h <;> exact nomatch h
  | some a =>
    have hlog : ∃ pre, st1.log = pre ++ [.line (articleLine raw id) (some a)] := by
      obtain ⟨_, _, _, t4⟩ := q st1 a rfl
      rcases t4 with ⟨_, t4⟩ | ⟨b, evs, _, _, t4⟩
      · exact ⟨_, t4⟩
      · exact ⟨st.log ++ .line (articleLine raw id) (some b) :: evs, by rw [t4]; simp⟩
    obtain ⟨pre, hlog⟩ := hlog
    refine ⟨pre, a, hlog, ?_⟩
    unfold checkResponse at e1
    dsimp only at e1
    split at e1
    · rw [← e1] at hr; rcases hr with h | h <;> exact nomatch h
    · split at e1
      · next h =>
        rw [← e1]
        refine ⟨(fun h => nomatch h), fun _ => ?_⟩
        simpa [Bool.or_eq_true, or_assoc] using h
      · split at e1
        · next h =>
          rw [← e1]
          exact ⟨fun _ => h, (fun h => nomatch h)⟩
        · rw [← e1] at hr; rcases hr with h | h <;> exact nomatch h

theorem checkResponse_ok {st : St} {r : Option Bytes} (h : checkResponse st r = .ok) : ∃ a, r = some a ∧ startsWith (lit "2") a = true := by
  cases r with
  | none => exact nomatch h
  | some a =>
    unfold checkResponse at h
    dsimp only at h
    split at h
    · exact nomatch h
    · split at h
      · exact nomatch h
      · split at h
        · next ha => exact ⟨a, rfl, ha⟩
        · exact nomatch h

theorem joinGroup_group {cfg : Cfg} {g a : Bytes} {st st' : St} (h : joinGroup cfg g st = (some a, st')) (ha : startsWith (lit "2") a = true) : st'.group = g := by
  unfold joinGroup at h
  split at h
  · next hc =>
    obtain ⟨_, rfl⟩ := Prod.mk.inj h
    exact hc.2
  · split at h
    · exact nomatch h
    · split at h
      · obtain ⟨_, rfl⟩ := Prod.mk.inj h
        rfl
      · next hn =>
        obtain ⟨e1, _⟩ := Prod.mk.inj h
        rw [Option.some.inj e1] at hn
        exact absurd ha hn

theorem joinLoop_inv (cfg : Cfg) : ∀ (gs : List Bytes) (r : Option Bytes) (st : St), Inv st → (∀ a, r = some a → ¬ startsWith (lit "2") a = true) →
    Inv (joinLoop cfg gs r st).2 ∧ ∀ a, (joinLoop cfg gs r st).1 = some a → startsWith (lit "2") a = true → (joinLoop cfg gs r st).2.group ∈ gs
  | [], r, st, h, hr => ⟨h, fun a ha h2 => absurd h2 (hr a ha)⟩
  | g :: gs, r, st, h, hr => by
    have hi : Inv (joinGroup cfg g st).2 := step_inv cfg (.join g) (fun h => nomatch h) st h
    rw [joinLoop]
    generalize hj : joinGroup cfg g st = j at hi
    obtain ⟨j, st1⟩ := j
    cases j with
    | none =>
      obtain ⟨k1, k2⟩ := joinLoop_inv cfg gs none st1 hi (fun _ h => nomatch h)
      exact ⟨k1, fun a ha h2 => List.mem_cons_of_mem _ (k2 a ha h2)⟩
    | some b =>
      dsimp only
      split
      · next hb => exact ⟨hi, fun a ha h2 => by rw [joinGroup_group hj hb]; exact List.mem_cons_self⟩
      · next hb =>
        obtain ⟨k1, k2⟩ := joinLoop_inv cfg gs (some b) st1 hi (fun a ha => by rw [← Option.some.inj ha]; exact hb)
        exact ⟨k1, fun a ha h2 => List.mem_cons_of_mem _ (k2 a ha h2)⟩

/-- C117: as long as no connection fails or is cancelled: on a server with groups an article is fetched only after the server has changed to a group of the file, with no other group since. -/
theorem fetch_joined_partial (cfg : Cfg) (env : List Reply) (ops : List Op) (henv : ∀ r ∈ env, r ≠ .broken ∧ r ≠ .cancelled) (hops : .cancel ∉ ops) (groups : List Bytes) (hne : [] ∉ groups)
    (raw : Bool) (id : Bytes) (st' : St) (h : fetch cfg true groups raw id (ops.foldl (Op.run cfg) (fresh env)) = (.ok, st')) :
    ∃ pre a g, st'.log = pre ++ [.line (articleLine raw id) (some a)] ∧ startsWith (lit "2") a = true ∧ g ∈ groups ∧ Joined st'.log g := by
  have inv := run_inv cfg ops (fresh env) hops ⟨henv, Or.inr rfl, fun _ => rfl, fun h => absurd rfl h⟩
  generalize ops.foldl (Op.run cfg) (fresh env) = st at h inv
  unfold fetch at h
  rw [if_pos rfl] at h
  obtain ⟨k1, k2⟩ := joinLoop_inv cfg groups none st inv (fun _ h => nomatch h)
  generalize joinLoop cfg groups none st = j at h k1 k2
  obtain ⟨j, st1⟩ := j
  dsimp only at h k1 k2
  split at h
  · next hx => exact absurd (Prod.mk.inj h).1 hx.2
  · next hx =>
    have hok : checkResponse st1 j = .ok := Classical.byContradiction fun hn => hx ⟨rfl, hn⟩
    obtain ⟨b, rfl, hb⟩ := checkResponse_ok hok
    have hgm := k2 b rfl hb
    have inv2 : Inv (request cfg (articleLine raw id) st1).2 := step_inv cfg (.article raw id) (fun h => nomatch h) st1 k1
    have hg := request_group cfg (articleLine raw id) st1
    have hans := request_answer cfg (articleLine raw id) st1
    generalize request cfg (articleLine raw id) st1 = x at h inv2 hg hans
    obtain ⟨x, st2⟩ := x
    obtain ⟨e1, rfl⟩ := Prod.mk.inj h
    obtain ⟨a, rfl, ha⟩ := checkResponse_ok e1
    have hlog : ∃ pre, st2.log = pre ++ [.line (articleLine raw id) (some a)] := by
      obtain ⟨_, _, _, t4⟩ := hans st2 a rfl
      rcases t4 with ⟨_, t4⟩ | ⟨b, evs, _, _, t4⟩
      · exact ⟨_, t4⟩
      · exact ⟨st1.log ++ .line (articleLine raw id) (some b) :: evs, by rw [t4]; simp⟩
    obtain ⟨pre, hlog⟩ := hlog
    refine ⟨pre, a, st1.group, hlog, ha, hgm, ?_⟩
    have := inv2.2.2.2
    dsimp only at this hg
    rw [hg] at this
    exact this (fun h => hne (h ▸ hgm))

/-- The number of lines the server sees. -/
def linesIn (b : Bytes) : Nat := b.count 10

/-- The lines which are sent carry the name, the password and the group whole, if they are not too long. -/
theorem lines_sent (cfg : Cfg) (g : Bytes) (h1 : cfg.user.length ≤ 1007) (h2 : cfg.pass.length ≤ 1007) (h3 : g.length ≤ 1015) :
    userLine cfg = lit "AUTHINFO USER " ++ cfg.user ++ [13, 10] ∧ passLine cfg = lit "AUTHINFO PASS " ++ cfg.pass ++ [13, 10] ∧
    groupLine g = lit "GROUP " ++ g ++ [13, 10] := by
  unfold userLine passLine groupLine bstr crlf
  refine ⟨List.take_of_length_le ?_, List.take_of_length_le ?_, List.take_of_length_le ?_⟩
  · rw [List.length_append, List.length_append, show (lit "AUTHINFO USER ").length = 14 from rfl, show [(13 : UInt8), 10].length = 2 from rfl]; omega
  · rw [List.length_append, List.length_append, show (lit "AUTHINFO PASS ").length = 14 from rfl, show [(13 : UInt8), 10].length = 2 from rfl]; omega
  · rw [List.length_append, List.length_append, show (lit "GROUP ").length = 6 from rfl, show [(13 : UInt8), 10].length = 2 from rfl]; omega

/-- After an authorisation which has failed nothing is asked for in a group which was joined before. -/
theorem auth_error_stops (cfg : Cfg) (g : Bytes) (gs : List Bytes) (raw : Bool) (id : Bytes) (st : St) (hg : g ≠ []) (hs : st.group = g)
    (ha : st.authError = true) : fetch cfg true (g :: gs) raw id st = (.connectError, st) := by
  have hj : joinLoop cfg (g :: gs) none st = (some (lit "211 "), st) := by
    unfold joinLoop joinGroup
    rw [if_pos ⟨by rw [hs]; exact hg, hs⟩]
    rfl
  have hc : checkResponse st (some (lit "211 ")) = .connectError := by
    unfold checkResponse
    rw [ha]
    rfl
  unfold fetch
  dsimp only
  rw [if_pos rfl, hj]
  dsimp only
  rw [hc, if_pos ⟨rfl, by decide⟩]

example : fetch ⟨lit "u", lit "p"⟩ true [lit "alt.x"] false (lit "<1@x>") ⟨.connected, lit "alt.x", true, [], []⟩ = (.connectError, ⟨.connected, lit "alt.x", true, [], []⟩) :=
  auth_error_stops _ _ _ _ _ _ (by decide) rfl rfl

/-- C117: a message-id without line breaks which is not too long is asked for with one line. -/
theorem one_line (raw : Bool) (id : Bytes) (hl : id.length ≤ 1013) (hn : (10 : UInt8) ∉ id) :
    linesIn (articleLine raw id) = 1 ∧ articleLine raw id = (if raw then lit "ARTICLE " else lit "BODY ") ++ id ++ [13, 10] := by
  have h : articleLine raw id = (if raw then lit "ARTICLE " else lit "BODY ") ++ id ++ [13, 10] := by
    unfold articleLine bstr crlf
    rw [List.take_of_length_le]
    · cases raw <;> simp [lit]
    · cases raw <;> simp [lit] <;> omega
  refine ⟨?_, h⟩
  rw [h]
  unfold linesIn
  have h0 : id.count 10 = 0 := List.count_eq_zero.2 hn
  rw [List.count_append, List.count_append, h0]
  cases raw <;> rfl

/-- C117 (refutes): a message-id with line breaks makes the program send any commands to the server, each of which the server answers. -/
theorem injected (id cmd : Bytes) (hl : id.length + cmd.length ≤ 1011) : articleLine false (id ++ crlf ++ cmd) = articleLine false id ++ cmd ++ crlf := by
  unfold articleLine bstr crlf
  rw [List.take_of_length_le (by simp [lit]; omega), List.take_of_length_le (by simp [lit]; omega)]
  simp

/-- C117 (refutes): the request for a very long message-id is not a line at all. -/
theorem no_line (id : Bytes) (hl : 1017 ≤ id.length) (hn : (10 : UInt8) ∉ id) : linesIn (articleLine false id) = 0 := by
  unfold linesIn articleLine bstr crlf
  rw [if_neg Bool.false_ne_true]
  refine List.count_eq_zero.2 (fun h => ?_)
  have e : lit "BODY" ++ 32 :: id ++ [13, 10] = (lit "BODY" ++ 32 :: id ++ [13]) ++ [10] := by simp
  rw [e, List.take_append_of_le_length (by simp [lit]; omega)] at h
  have := List.mem_of_mem_take h
  simp [lit] at this
  exact hn this

/-! ### Examples -/

def exCfg : Cfg := ⟨lit "me", lit "secret"⟩
example : (connect exCfg true (fresh [.answer (lit "200 hello"), .answer (lit "381 more"), .answer (lit "281 ok")])).1 = true := by decide
example : (connect exCfg true (fresh [.answer (lit "200 hello"), .answer (lit "381 more"), .answer (lit "281 ok")])).2.log =
    [.greeting (some (lit "200 hello")), .line (userLine exCfg) (some (lit "381 more")), .line (passLine exCfg) (some (lit "281 ok"))] := by decide +kernel
/-- A refused authorisation leaves the connection open. -/
example : (connect exCfg true (fresh [.answer (lit "200 hello"), .answer (lit "482 no")])).1 = false ∧
    (connect exCfg true (fresh [.answer (lit "200 hello"), .answer (lit "482 no")])).2.status = .connected := by decide +kernel
example : Joined [.greeting none, .line (groupLine (lit "a.b")) (some (lit "211 ok")), .line (lit "BODY <1>") (some (lit "222"))] (lit "a.b") :=
  ⟨[.greeting none], lit "211 ok", [.line (lit "BODY <1>") (some (lit "222"))], rfl, by decide, fun l b h _ => by
    rw [(Ev.line.inj (List.mem_singleton.1 h)).1]
    rintro ⟨g, e⟩
    exact group_ne g _ (by decide) e⟩
example : (fetch exCfg true [lit "a.b"] false (lit "<1@x>") ⟨.connected, [], false, [], [.answer (lit "211 ok"), .answer (lit "222 body")]⟩).1 = .ok := by decide +kernel

end Verif.Nntp
