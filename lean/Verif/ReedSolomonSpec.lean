/-
Specification of the recovery blocks of a par2 set, as it is given by the format: the values of 16 bits form the field of polynomials
modulo x^16 + x^12 + x^3 + x + 1, the block with number `i` has the constant 2 ^ l, where `l` is the number `i` of the numbers which have
no common divisor with 65535, and the recovery block with the exponent `e` is the sum of all blocks, each multiplied by its constant to
the power of `e`. Nothing of the model is used here.
-/
namespace Verif.RsSpec

/-- The product with the polynomial x. -/
def xtimes (a : Nat) : Nat := if a < 32768 then 2 * a else (2 * a) ^^^ 0x1100B

/-- The product of the polynomials with the bits of `a` and of the lowest `n` bits of `b`. -/
def productBits : Nat → Nat → Nat → Nat
  | 0, _, _ => 0
  | n + 1, a, b => (if b % 2 = 1 then a else 0) ^^^ productBits n (xtimes a) (b / 2)

/-- The product of two elements of the field. -/
def product (a b : Nat) : Nat := productBits 16 a b

/-- The power of an element of the field. -/
def power (a : Nat) : Nat → Nat
  | 0 => 1
  | n + 1 => product a (power a n)

/-- The exponents of the constants. -/
def logs : List Nat := (List.range 65535).filter (fun l => Nat.gcd 65535 l = 1)

/-- The constant of a block. -/
def constant (i : Nat) : Nat := power 2 (logs.getD i 0)

/-- The two symbols of 16 bits of a word of 32 bits. -/
def low (w : Nat) : Nat := w % 65536
def high (w : Nat) : Nat := w / 65536

/-- The sum of all blocks, the block `i` with the factor `f i`, at one place: `ws` are the words of the blocks at this place. -/
def combine (f : Nat → Nat) : Nat → List Nat → Nat × Nat
  | _, [] => (0, 0)
  | i, w :: ws =>
    let r := combine f (i + 1) ws
    (product (f i) (low w) ^^^ r.1, product (f i) (high w) ^^^ r.2)

/-- The word of the recovery block with the exponent `e`, from the words of the blocks at the same place. -/
def recoveryWord (e : Nat) (ws : List Nat) : Nat :=
  let r := combine (fun i => power (constant i) e) 0 ws
  r.1 + 65536 * r.2

/-- The words of the blocks at the place `j`. -/
def column (blocks : List (List Nat)) (j : Nat) : List Nat := blocks.map (fun b => b.getD j 0)

/-- The recovery block with the exponent `e` of blocks with `n` words of 32 bits. -/
def recovery (n : Nat) (blocks : List (List Nat)) (e : Nat) : List Nat :=
  (List.range n).map (fun j => recoveryWord e (column blocks j))

/-- Blocks of `n` words of 32 bits. -/
def Blocks (n : Nat) (blocks : List (List Nat)) : Prop := ∀ b ∈ blocks, b.length = n ∧ ∀ w ∈ b, w < 2 ^ 32

/-- The blocks for which `present` has the value `v`, in their order. -/
def select (v : Bool) : List Bool → List (List Nat) → List (List Nat)
  | p :: ps, b :: bs => if p = v then b :: select v ps bs else select v ps bs
  | _, _ => []

end Verif.RsSpec
