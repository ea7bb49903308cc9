import Verif.Conn
/-! C08: the buffered reader of a connection. -/
namespace Verif.Conn
open CStr

/-- What has been sent by the peer and not yet been returned to a caller. -/
def pending (c : Conn) : Bytes := c.buf ++ c.sock.flatten

/-- Specification of one line: at most `n` bytes, up to and including the first newline. -/
def firstLine : Nat → Bytes → Bytes
  | 0, _ => []
  | _, [] => []
  | n + 1, b :: s => if b = 10 then [10] else b :: firstLine n s

/-- Specification of reading lines one after the other, on the stream alone. -/
def linesOf : List Nat → Bytes → List Bytes
  | [], _ => []
  | n :: ns, s => firstLine n s :: linesOf ns (s.drop (firstLine n s).length)

/-- Pieces delivered by a socket are not empty. -/
def Ok (c : Conn) : Prop := ∀ b ∈ c.sock, b ≠ []

theorem lineLen_spec (b : Bytes) (n : Nat) (rest : Bytes) :
    ((lineLen b).2 = true → firstLine n (b ++ rest) = b.take (min (lineLen b).1 n)) ∧
    ((lineLen b).2 = false → (lineLen b).1 = b.length ∧
      firstLine n (b ++ rest) = b.take n ++ firstLine (n - b.length) rest) := by
  induction b generalizing n with
  | nil => simp [lineLen]
  | cons x b ih =>
    rw [lineLen]
    by_cases hx : x = 10
    · subst hx
      refine ⟨fun _ => ?_, fun h => by simp at h⟩
      cases n with
      | zero => simp [firstLine]
      | succ n => simp [firstLine]
    · simp only [hx, if_false]
      cases n with
      | zero =>
        refine ⟨fun _ => by simp [firstLine], fun h => ⟨?_, by simp [firstLine]⟩⟩
        simp [((ih 0).2 h).1]
      | succ n =>
        refine ⟨fun h => ?_, fun h => ⟨?_, ?_⟩⟩
        · rw [List.cons_append, firstLine]
          simp only [hx, if_false]
          rw [(ih n).1 h, Nat.succ_min_succ]
          rfl
        · simp [((ih n).2 h).1]
        · rw [List.cons_append, firstLine]
          simp only [hx, if_false]
          rw [((ih n).2 h).2]
          simp

theorem lineLen_pos (b : Bytes) (h : b ≠ []) : 0 < (lineLen b).1 := by
  cases b with
  | nil => exact absurd rfl h
  | cons x b => rw [lineLen]; split <;> simp

theorem lineLen_le (b : Bytes) : (lineLen b).1 ≤ b.length := by
  induction b with
  | nil => simp [lineLen]
  | cons x b ih => rw [lineLen]; split <;> simp [ih]

theorem recvSock_data (sock : List Bytes) (err : Bool) (n : Nat) (hn : 0 < n) (h : ∀ b ∈ sock, b ≠ []) :
    (sock = [] ∧ recvSock sock err n = if err then .error else .eof) ∨
    ∃ b s, recvSock sock err n = .data b s ∧ b ≠ [] ∧ b.length ≤ n ∧ b ++ s.flatten = sock.flatten ∧ (∀ x ∈ s, x ≠ []) := by
  cases sock with
  | nil => exact Or.inl ⟨rfl, rfl⟩
  | cons c cs =>
    right
    have hc := h c (by simp)
    unfold recvSock
    simp only [hc, if_false]
    split
    · exact ⟨c, cs, rfl, hc, by assumption, by simp, fun x hx => h x (by simp [hx])⟩
    · rename_i hl
      refine ⟨c.take n, c.drop n :: cs, rfl, ?_, by rw [List.length_take]; omega, ?_, ?_⟩
      · intro he
        have := congrArg List.length he
        rw [List.length_take, List.length_nil] at this; omega
      · rw [List.flatten_cons, ← List.append_assoc, List.take_append_drop]; rfl
      · intro x hx
        rcases List.mem_cons.1 hx with rfl | hx
        · intro he
          have := congrArg List.length he
          rw [List.length_drop, List.length_nil] at this; omega
        · exact h x (by simp [hx])

theorem readLoop_spec (fuel : Nat) : ∀ (size : Nat) (c : Conn) (out : Bytes), size < fuel → Ok c →
    ∃ c', readLoop fuel size c out = some (out ++ firstLine size (pending c), c') ∧ Ok c' ∧
      pending c = firstLine size (pending c) ++ pending c' ∧ c'.err = c.err ∧
      (c'.status = c.status ∨ (c.err = true ∧ pending c' = [])) := by
  induction fuel with
  | zero => intro size _ _ h; omega
  | succ fuel ih =>
    intro size c out hs hok
    rw [readLoop]
    by_cases h0 : size = 0
    · subst h0
      simp only [if_true]
      exact ⟨c, by simp [firstLine], hok, by simp [firstLine], rfl, Or.inl rfl⟩
    · simp only [h0, if_false]
      -- one copy step from a non-empty buffer
      have step : ∀ c1 : Conn, c1.buf ≠ [] → Ok c1 → pending c1 = pending c → c1.err = c.err → c1.status = c.status →
          ∃ c', (let (len, p) := lineLen c1.buf
            let len := if len > size then size else len
            let out := out ++ c1.buf.take len
            let c := { c1 with buf := c1.buf.drop len }
            if p then some (out, c) else readLoop fuel (size - len) c out)
              = some (out ++ firstLine size (pending c), c') ∧ Ok c' ∧
            pending c = firstLine size (pending c) ++ pending c' ∧ c'.err = c.err ∧
            (c'.status = c.status ∨ (c.err = true ∧ pending c' = [])) := by
        intro c1 hb hok1 hp he hst
        have hpos := lineLen_pos c1.buf hb
        have hle := lineLen_le c1.buf
        have hspec := lineLen_spec c1.buf size c1.sock.flatten
        rw [show c1.buf ++ c1.sock.flatten = pending c by rw [← hp]; rfl] at hspec
        rcases hl : lineLen c1.buf with ⟨len, p⟩
        rw [hl] at hspec hpos hle
        simp only at hspec hpos hle ⊢
        have hmin : (if len > size then size else len) = min len size := by
          split <;> omega
        rw [hmin]
        have hpend : pending c = c1.buf.take (min len size) ++ (c1.buf.drop (min len size) ++ c1.sock.flatten) := by
          rw [← hp]
          unfold pending
          rw [← List.append_assoc, List.take_append_drop]
        cases p with
        | true =>
          have h1 := hspec.1 rfl
          simp only [if_true]
          refine ⟨{ c1 with buf := c1.buf.drop (min len size) }, by rw [h1], fun b hb => hok1 b hb, ?_, he, Or.inl hst⟩
          rw [h1]; exact hpend
        | false =>
          obtain ⟨h1, h2⟩ := hspec.2 rfl
          simp only [Bool.false_eq_true, if_false]
          subst h1
          by_cases hfit : c1.buf.length ≤ size
          · have hm : min c1.buf.length size = c1.buf.length := by omega
            rw [hm]
            simp only [List.take_length, List.drop_length]
            obtain ⟨c', g1, g2, g3, g4, g5⟩ := ih (size - c1.buf.length) { c1 with buf := [] } (out ++ c1.buf) (by omega) hok1
            have hq : pending { c1 with buf := [] } = c1.sock.flatten := rfl
            rw [hq] at g1 g3
            refine ⟨c', ?_, g2, ?_, by rw [g4, ← he], ?_⟩
            · rw [g1, h2, List.take_of_length_le hfit, List.append_assoc]
            · rw [h2, List.take_of_length_le hfit, List.append_assoc, ← g3, ← hp]; rfl
            · rcases g5 with g | ⟨g, g'⟩
              · exact Or.inl (by rw [g, ← hst])
              · exact Or.inr ⟨by rw [← he]; exact g, g'⟩
          · have hm : min c1.buf.length size = size := by omega
            rw [hm]
            obtain ⟨c', g1, g2, g3, g4, g5⟩ := ih (size - size) { c1 with buf := c1.buf.drop size } (out ++ c1.buf.take size) (by omega) hok1
            have hz : size - size = 0 := by omega
            have hz2 : size - c1.buf.length = 0 := by omega
            rw [hz] at g1 g3 ⊢
            have hf0 : ∀ s, firstLine 0 s = [] := fun s => by cases s <;> rfl
            rw [hf0, List.append_nil] at g1
            rw [hf0, List.nil_append] at g3
            refine ⟨c', ?_, g2, ?_, by rw [g4, ← he], ?_⟩
            · rw [g1, h2, hz2, hf0, List.append_nil]
            · rw [h2, hz2, hf0, List.append_nil, ← g3, hpend, hm]; rfl
            · rcases g5 with g | ⟨g, g'⟩
              · exact Or.inl (by rw [g, ← hst])
              · exact Or.inr ⟨by rw [← he]; exact g, g'⟩
      by_cases hb : c.buf = []
      · simp only [hb, if_true]
        rcases recvSock_data c.sock c.err readBufSize (by decide) hok with ⟨h1, h2⟩ | ⟨b, s, h1, h2, h3, h4, h5⟩
        · rw [h2]
          have hpe : pending c = [] := by simp [pending, hb, h1]
          have hf : firstLine size (pending c) = [] := by rw [hpe]; cases size <;> rfl
          rw [hf, List.append_nil]
          by_cases hce : c.err = true
          · simp only [hce, if_true]
            refine ⟨_, rfl, hok, ?_, rfl, Or.inr ⟨trivial, ?_⟩⟩
            · simp [pending, hb, h1]
            · simp [pending, h1]
          · simp only [hce]
            exact ⟨_, rfl, hok, by rw [List.nil_append], by simpa using hce, Or.inl rfl⟩
        · rw [h1]
          simp only
          exact step { c with buf := b, sock := s } h2 h5 (by simp [pending, hb, h4]) rfl rfl
      · simp only [hb, if_false]
        exact step c hb hok rfl rfl rfl

/-- C08: one call of `ReadLine` with a buffer of at least two bytes returns exactly the next bytes of
the stream up to and including the first newline (as many as fit), however the socket cut the stream
and whatever is left in the read buffer; and leaves exactly the rest of the stream. -/
theorem readLine_spec (c : Conn) (size : Nat) (hok : Ok c) (hs : 1 ≤ size) (hc : c.status = .connected) :
    ∃ c', readLine c size =
        some (if firstLine (size - 1) (pending c) = [] then none else some (firstLine (size - 1) (pending c)), c') ∧
      pending c = firstLine (size - 1) (pending c) ++ pending c' ∧ Ok c' ∧ c'.err = c.err ∧
      (c'.status = .connected ∨ (c.err = true ∧ pending c' = [])) := by
  unfold readLine
  simp only [hc, ne_eq, not_true_eq_false, if_false]
  obtain ⟨c', h1, h2, h3, h4, h5⟩ := readLoop_spec size (size - 1) c [] (by omega) hok
  rw [h1]
  exact ⟨c', rfl, h3, h2, h4, by rw [← hc]; exact h5⟩

/-- A sequence of `ReadLine` calls with the given buffer sizes. -/
def readLines : Conn → List Nat → Option (List Bytes × Conn)
  | c, [] => some ([], c)
  | c, n :: ns => do
    let (l, c) ← readLine c n
    let (ls, c) ← readLines c ns
    pure (l.getD [] :: ls, c)

/-- C08: the lines returned by any sequence of calls depend only on the byte stream, not on the pieces
in which it arrived. -/
theorem readLines_spec (sizes : List Nat) (hs : ∀ n ∈ sizes, 1 ≤ n) : ∀ (c : Conn), Ok c → c.status = .connected →
    c.err = false →
    ∃ c', readLines c sizes = some (linesOf (sizes.map (· - 1)) (pending c), c') ∧
      pending c = (linesOf (sizes.map (· - 1)) (pending c)).flatten ++ pending c' := by
  induction sizes with
  | nil => intro c _ _ _; exact ⟨c, rfl, by simp [linesOf]⟩
  | cons n ns ih =>
    intro c hok hc he
    obtain ⟨c1, h1, h2, h3, h4, h5⟩ := readLine_spec c n hok (hs n (by simp)) hc
    have hc1 : c1.status = .connected := by
      rcases h5 with h | ⟨h, -⟩
      · exact h
      · rw [he] at h; cases h
    obtain ⟨c2, g1, g2⟩ := ih (fun m hm => hs m (by simp [hm])) c1 h3 hc1 (by rw [h4, he])
    have hdrop : (pending c).drop (firstLine (n - 1) (pending c)).length = pending c1 := by
      conv => lhs; arg 2; rw [h2]
      simp
    refine ⟨c2, ?_, ?_⟩
    · rw [readLines, h1]
      simp only [bind, Option.bind, g1]
      have : ∀ x : Bytes, (if x = [] then none else some x).getD [] = x := by
        intro x; split <;> simp [*]
      simp only [this]
      simp [linesOf, hdrop]
    · rw [List.map_cons, linesOf, hdrop, List.flatten_cons, List.append_assoc, ← g2]
      exact h2

/-- C08: two deliveries of the same stream give the same lines. -/
theorem readLines_delivery_irrelevant (sizes : List Nat) (hs : ∀ n ∈ sizes, 1 ≤ n) (s1 s2 : List Bytes)
    (h1 : ∀ b ∈ s1, b ≠ []) (h2 : ∀ b ∈ s2, b ≠ []) (h : s1.flatten = s2.flatten) :
    (readLines { sock := s1 } sizes).map Prod.fst = (readLines { sock := s2 } sizes).map Prod.fst ∧
    (readLines { sock := s1 } sizes).isSome = true := by
  obtain ⟨c1, g1, -⟩ := readLines_spec sizes hs { sock := s1 } h1 rfl rfl
  obtain ⟨c2, g2, -⟩ := readLines_spec sizes hs { sock := s2 } h2 rfl rfl
  rw [g1, g2]
  have : pending { sock := s1 } = pending { sock := s2 } := by simp [pending, h]
  simp [this]

example : ∃ c', readLines { sock := [[72, 105], [13, 10, 65], [66, 10]] } [100, 3, 3] =
    some ([[72, 105, 13, 10], [65, 66], [10]], c') := ⟨_, rfl⟩
example : ∀ b ∈ ([[72, 105], [13, 10, 65], [66, 10]] : List Bytes), b ≠ [] := by decide

/-- `Recv`: exactly the next `size` bytes of the stream, or a failure if the stream is shorter. -/
theorem recvLoop_spec (fuel : Nat) : ∀ (need : Nat) (c : Conn) (out : Bytes), need < fuel → Ok c → c.buf = [] ∨ need = 0 →
    ∃ r c', recvLoop fuel need c out = some (r, c') ∧ Ok c' ∧
      (need ≤ c.sock.flatten.length → r = some (out ++ c.sock.flatten.take need) ∧
        c'.buf = c.buf ∧ c'.sock.flatten = c.sock.flatten.drop need) ∧
      (c.sock.flatten.length < need → r = none) := by
  induction fuel with
  | zero => intro n _ _ h; omega
  | succ fuel ih =>
    intro need c out hn hok hb
    rw [recvLoop]
    by_cases h0 : need = 0
    · subst h0
      simp only [if_true]
      exact ⟨some out, c, rfl, hok, fun _ => ⟨by simp, rfl, by simp⟩, fun h => by omega⟩
    · simp only [h0, if_false]
      have hbuf : c.buf = [] := by rcases hb with h | h; exact h; exact absurd h h0
      rcases recvSock_data c.sock c.err need (by omega) hok with ⟨h1, h2⟩ | ⟨b, s, h1, h2, h3, h4, h5⟩
      · rw [h2]
        cases c.err
        · exact ⟨none, c, rfl, hok, fun h => by simp [h1] at h; omega, fun _ => rfl⟩
        · exact ⟨none, c, rfl, hok, fun h => by simp [h1] at h; omega, fun _ => rfl⟩
      · rw [h1]
        simp only
        have hbl : 0 < b.length := List.length_pos_iff.2 h2
        obtain ⟨r, c', g1, g2, g3, g4⟩ := ih (need - b.length) { c with sock := s } (out ++ b) (by omega) h5 (Or.inl hbuf)
        have hlen : c.sock.flatten.length = b.length + s.flatten.length := by rw [← h4]; simp
        refine ⟨r, c', g1, g2, ?_, ?_⟩
        · intro h
          obtain ⟨e1, e2, e3⟩ := g3 (by simp only; omega)
          refine ⟨?_, e2, ?_⟩
          · rw [e1, ← h4, List.take_append, List.take_of_length_le h3, List.append_assoc]
          · rw [e3, ← h4, List.drop_append, List.drop_of_length_le h3, List.nil_append]
        · intro h
          exact g4 (by simp only; omega)

/-- C08 for `Recv`. -/
theorem recv_spec (c : Conn) (size : Nat) (hok : Ok c) :
    ∃ r c', recvAll c size = some (r, c') ∧
      (size ≤ (pending c).length → r = some ((pending c).take size) ∧ pending c' = (pending c).drop size) ∧
      ((pending c).length < size → r = none) := by
  unfold recvAll
  simp only
  have hmin : (if size > c.buf.length then c.buf.length else size) = min c.buf.length size := by split <;> omega
  rw [hmin]
  obtain ⟨r, c', g1, g2, g3, g4⟩ := recvLoop_spec (size - min c.buf.length size + 1) (size - min c.buf.length size)
    { c with buf := c.buf.drop (min c.buf.length size) } (c.buf.take (min c.buf.length size)) (by omega) hok (by
      by_cases h : c.buf.length ≤ size
      · left
        simp only
        rw [show min c.buf.length size = c.buf.length by omega]; simp
      · right; omega)
  have hpl : (pending c).length = c.buf.length + c.sock.flatten.length := by simp [pending]
  refine ⟨r, c', g1, ?_, ?_⟩
  · intro h
    obtain ⟨e1, e2, e3⟩ := g3 (by simp only; omega)
    simp only at e1 e2 e3
    refine ⟨?_, ?_⟩
    · rw [e1, pending, List.take_append]
      by_cases hf : c.buf.length ≤ size
      · rw [show min c.buf.length size = c.buf.length by omega, List.take_length, List.take_of_length_le hf]
      · rw [show min c.buf.length size = size by omega, show size - c.buf.length = 0 by omega, Nat.sub_self]
    · rw [pending, e2, e3, pending, List.drop_append]
      by_cases hf : c.buf.length ≤ size
      · rw [show min c.buf.length size = c.buf.length by omega, List.drop_length, List.drop_of_length_le hf]
      · rw [show min c.buf.length size = size by omega, show size - c.buf.length = 0 by omega, Nat.sub_self]
  · intro h
    exact g4 (by simp only; omega)

example : recvAll { buf := [1, 2], sock := [[3], [4, 5, 6]] } 4 = some (some [1, 2, 3, 4], { buf := [], sock := [[5, 6]] }) := by
  decide

/-- What the article download loop sees (first the rest of the read buffer, then the socket): the buffers
taken one after the other are the stream in order, nothing lost or repeated. -/
theorem nextBuffer_spec (c : Conn) (size : Nat) (hs : 0 < size) (hok : Ok c) :
    ∀ b c', nextBuffer c size = (some b, c') → pending c = b ++ pending c' ∧ Ok c' ∧
      (b = [] → pending c = []) := by
  intro b c' h
  unfold nextBuffer readBuffer at h
  simp only at h
  split at h
  · rename_i hb
    have hb : c.buf = [] := List.length_eq_zero_iff.1 hb
    unfold tryRecv at h
    simp only at h
    rcases recvSock_data c.sock c.err size hs hok with ⟨h1, h2⟩ | ⟨b', s, h1, h2, h3, h4, h5⟩
    · rw [h2] at h
      cases hce : c.err with
      | true => rw [hce] at h; simp at h
      | false =>
        rw [hce] at h
        simp only [Bool.false_eq_true, if_false, Prod.mk.injEq, Option.some.injEq] at h
        obtain ⟨rfl, rfl⟩ := h
        refine ⟨by simp [pending, hb], hok, fun _ => by simp [pending, hb, h1]⟩
    · rw [h1] at h
      simp only [Prod.mk.injEq, Option.some.injEq] at h
      obtain ⟨rfl, rfl⟩ := h
      exact ⟨by simp [pending, hb, h4], h5, fun h => absurd h h2⟩
  · rename_i hb
    simp only [Prod.mk.injEq, Option.some.injEq] at h
    obtain ⟨rfl, rfl⟩ := h
    exact ⟨by simp [pending], hok, fun h => by simp [h] at hb⟩

example : nextBuffer { buf := [61, 121], sock := [[1]] } 4096 = (some [61, 121], { buf := [], sock := [[1]] }) := by decide

end Verif.Conn
