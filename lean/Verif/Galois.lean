/-
Model of the arithmetic of the repairer in the field with 65536 elements, /repo/lib/par2/galois.h, for the instance
`Galois16 = Galois<16,0x1100B,u16>` (galois.h:339).
-/
namespace Verif.Galois

/-- `Limit`, galois.h:51 and 103, for `bits` = 16. -/
def limit : Nat := 65535

/-- `Count`, galois.h:50 and 102, for `bits` = 16. -/
def count : Nat := 65536

/-- `Generator`, galois.h:52 and 339. -/
def generator : Nat := 0x1100B

/-- The class `Galois`, galois.h:59-112: an element is its value of 16 bits. -/
structure G16 where
  value : UInt16
deriving DecidableEq

/-- An array after an assignment to one of its elements. -/
def set {α : Type} (f : Nat → α) (i : Nat) (v : α) : Nat → α := fun j => if j = i then v else f j

/-- The class `GaloisTable`, galois.h:41-57. The arrays are functions of the index. -/
structure Table where
  log : Nat → UInt16
  antilog : Nat → UInt16

/-- `b <<= 1; if (b & Count) b ^= Generator;`, galois.h:146-147. `b` has 32 bits and stays below 2^17, so nothing is lost by the shift. -/
def step (b : Nat) : Nat := if (b <<< 1) &&& count ≠ 0 then (b <<< 1) ^^^ generator else b <<< 1

/-- The loop which fills both arrays, galois.h:141-148, with the number of iterations left, `l` and `b`. -/
def fill : Nat → Nat → Nat → Table → Table
  | 0, _, _, t => t
  | n + 1, l, b, t => fill n (l + 1) (step b) { log := set t.log b (UInt16.ofNat l), antilog := set t.antilog l (UInt16.ofNat b) }

/-- The constructor of `GaloisTable`, galois.h:137-152. The elements of the arrays are undefined before (here 0); all of them are assigned. -/
def table : Table :=
  let t := fill limit 0 1 { log := fun _ => 0, antilog := fun _ => 0 }
  { log := set t.log 0 (UInt16.ofNat limit), antilog := set t.antilog limit 0 }

/-- The element with the value `v`, galois.h:161-165. -/
def ofValue (v : Nat) : G16 := ⟨UInt16.ofNat v⟩

/-- `operator +` and `+=`, galois.h:74-75. -/
def add (a b : G16) : G16 := ⟨a.value ^^^ b.value⟩

/-- `operator -` and `-=`, galois.h:78-79. -/
def sub (a b : G16) : G16 := ⟨a.value ^^^ b.value⟩

/-- `operator *`, galois.h:167-180; `operator *=`, galois.h:182-203, computes the same. -/
def mul (a b : G16) : G16 :=
  if a.value = 0 ∨ b.value = 0 then ⟨0⟩
  else
    let sum := (table.log a.value.toNat).toNat + (table.log b.value.toNat).toNat
    if sum ≥ limit then ⟨table.antilog (sum - limit)⟩ else ⟨table.antilog sum⟩

/-- `operator /`, galois.h:205-222; `operator /=`, galois.h:224-243, computes the same for a divisor other than 0. For the divisor 0 the
assertion of builds with debug information is not modelled. -/
def div (a b : G16) : G16 :=
  if a.value = 0 then ⟨0⟩
  else if b.value = 0 then ⟨0⟩
  else
    let sum : Int := ((table.log a.value.toNat).toNat : Int) - (table.log b.value.toNat).toNat
    if sum < 0 then ⟨table.antilog (sum + limit).toNat⟩ else ⟨table.antilog sum.toNat⟩

/-- The folding of the product of a logarithm and an exponent, galois.h:251-253: a multiplication of 32 bits without sign. -/
def fold (lg right : Nat) : Nat :=
  let sum := lg * right % 2 ^ 32
  (sum >>> 16) + (sum &&& limit)

/-- `pow`, galois.h:245-262. -/
def pow (a : G16) (right : Nat) : G16 :=
  if right = 0 then ⟨1⟩
  else if a.value = 0 then ⟨0⟩
  else
    let sum := fold (table.log a.value.toNat).toNat right
    if sum ≥ limit then ⟨table.antilog (sum - limit)⟩ else ⟨table.antilog sum⟩

/-- `ALog`, galois.h:310-314. -/
def alog (a : G16) : UInt16 := table.antilog a.value.toNat

instance : Zero G16 := ⟨⟨0⟩⟩
instance : One G16 := ⟨⟨1⟩⟩
instance : Add G16 := ⟨add⟩
instance : Sub G16 := ⟨sub⟩
instance : Mul G16 := ⟨mul⟩
instance : Div G16 := ⟨div⟩

end Verif.Galois
