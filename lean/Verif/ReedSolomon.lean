import Verif.Galois
/-
Model of the computation of missing blocks from recovery blocks: /repo/lib/par2/reedsolomon.h, reedsolomon.cpp (for Galois16) and the
functions of par2repairer.cpp which use it.
-/
namespace Verif.Rs
open Verif.Galois

/-- The loop of `gcd`, reedsolomon.cpp:38-48, with the number of iterations that may be left. -/
def gcdLoop : Nat → Nat → Nat → Nat
  | 0, a, b => a + b
  | n + 1, a, b => if a ≠ 0 ∧ b ≠ 0 then (if a > b then gcdLoop n (a % b) b else gcdLoop n a (b % a)) else a + b

/-- `gcd`, reedsolomon.cpp:34-56. Each iteration makes `a + b` smaller. -/
def gcd (a b : Nat) : Nat := if a ≠ 0 ∧ b ≠ 0 then gcdLoop (a + b) a b else 0

/-- `while (gcd(G::Limit, logbase) != 1) logbase++`, reedsolomon.cpp:221-224, with the number of iterations that may be left. -/
def seekBase : Nat → Nat → Nat
  | 0, logbase => logbase
  | n + 1, logbase => if gcd limit logbase ≠ 1 then seekBase n (logbase + 1) else logbase

/-- `datapresentindex`, `datamissingindex` and `database`, reedsolomon.h:81-88. -/
structure Input where
  present : List Nat
  missing : List Nat
  base : List G16

/-- The loop of SetInput, reedsolomon.cpp:206-233, with `index` and `logbase`. `none`: the function returns false. No number above 65536
is reached by the inner loop, as 65536 has no common divisor with 65535. -/
def inputLoop : List Bool → Nat → Nat → Input → Option Input
  | [], _, _, inp => some inp
  | p :: ps, index, logbase, inp =>
    let inp := if p then { inp with present := inp.present ++ [index] } else { inp with missing := inp.missing ++ [index] }
    let logbase := seekBase (65536 - logbase) logbase
    if logbase ≥ limit then none
    else inputLoop ps (index + 1) (logbase + 1) { inp with base := inp.base ++ [⟨alog (ofValue logbase)⟩] }

/-- SetInput, reedsolomon.cpp:196-236. -/
def setInput (present : List Bool) : Option Input := inputLoop present 0 0 { present := [], missing := [], base := [] }

/-- The exponents of the first `n` rows with this value of `present`, reedsolomon.h:256-261, 288 and 300-305, 332. `none`: the end of the
rows is passed. -/
def takeRows (want : Bool) : Nat → List (Bool × Nat) → Option (List Nat)
  | 0, _ => some []
  | _ + 1, [] => none
  | n + 1, (p, e) :: rows => if p = want then (takeRows want n rows).map (e :: ·) else takeRows want (n + 1) rows

/-- A matrix; the program stores its rows one after the other. -/
abbrev Mat (G : Type) := Nat → Nat → G

structure Mats (G : Type) where
  left : Mat G
  right : Mat G

section
variable {G : Type} [Zero G] [One G] [Sub G] [Mul G] [Div G] [DecidableEq G]

/-- The assignment to an element. -/
def put (m : Mat G) (r c : Nat) (v : G) : Mat G := fun r' c' => if r' = r ∧ c' = c then v else m r' c'

/-- A loop over `n` columns from `lo`. -/
def cols (body : Nat → Mat G → Mat G) : Nat → Nat → Mat G → Mat G
  | _, 0, m => m
  | lo, n + 1, m => cols body (lo + 1) n (body lo m)

/-- The body of the loops reedsolomon.h:408-414 and 416-422. -/
def scaleCell (row : Nat) (pivot : G) (col : Nat) (m : Mat G) : Mat G :=
  if m row col ≠ 0 then put m row col (m row col / pivot) else m

/-- The body of the loops reedsolomon.h:446-452 and 454-460. -/
def subCell (row row2 : Nat) (col : Nat) (m : Mat G) : Mat G :=
  if m row col ≠ 0 then put m row2 col (m row2 col - m row col) else m

/-- The body of the loops reedsolomon.h:465-471 and 473-479. -/
def subScaledCell (row row2 : Nat) (scale : G) (col : Nat) (m : Mat G) : Mat G :=
  if m row col ≠ 0 then put m row2 col (m row2 col - m row col * scale) else m

/-- The body of the loop over `row2`, reedsolomon.h:438-481. -/
def elimRow (rows leftcols row row2 : Nat) (s : Mats G) : Mats G :=
  if row ≠ row2 then
    let scale := s.right row2 row
    if scale = 1 then
      { left := cols (subCell row row2) 0 leftcols s.left, right := cols (subCell row row2) row (rows - row) s.right }
    else if scale ≠ 0 then
      { left := cols (subScaledCell row row2 scale) 0 leftcols s.left,
        right := cols (subScaledCell row row2 scale) row (rows - row) s.right }
    else s
  else s

/-- The loop over `row2`, reedsolomon.h:426-482, with the number of rows left. -/
def elimRows (rows leftcols row : Nat) : Nat → Nat → Mats G → Mats G
  | _, 0, s => s
  | row2, n + 1, s => elimRows rows leftcols row (row2 + 1) n (elimRow rows leftcols row row2 s)

/-- The scaling of the row, reedsolomon.h:405-423. -/
def scaleRow (rows leftcols row : Nat) (pivot : G) (s : Mats G) : Mats G :=
  if pivot ≠ 1 then
    { left := cols (scaleCell row pivot) 0 leftcols s.left,
      right := cols (scaleCell row pivot) (row + 1) (rows - (row + 1)) (put s.right row row 1) }
  else s

/-- The loop of GaussElim, reedsolomon.h:391-483, with the number of rows left. `none`: it returns false. -/
def gauss (rows leftcols : Nat) : Nat → Nat → Mats G → Option (Mats G)
  | _, 0, s => some s
  | row, n + 1, s =>
    let pivot := s.right row row
    if pivot = 0 then none
    else gauss rows leftcols (row + 1) n (elimRows rows leftcols row 0 rows (scaleRow rows leftcols row pivot s))

end

/-- The matrices before GaussElim, reedsolomon.h:231-333: `pe` are the exponents of the used recovery blocks, `me` those of the recovery
blocks to be computed. Each element is assigned once. -/
def matrices (inp : Input) (pe me : List Nat) : Mats G16 :=
  let dp := inp.present.length
  let dm := inp.missing.length
  let cell (idx : List Nat) (c : Nat) (e : Nat) : G16 := pow (inp.base.getD (idx.getD c 0) ⟨0⟩) e
  { left := fun r c =>
      if r < dm then (if c < dp then cell inp.present c (pe.getD r 0) else if r = c - dp then ⟨1⟩ else ⟨0⟩)
      else (if c < dp then cell inp.present c (me.getD (r - dm) 0) else ⟨0⟩),
    right := fun r c =>
      if r < dm then (if c < dm then cell inp.missing c (pe.getD r 0) else ⟨0⟩)
      else (if c < dm then cell inp.missing c (me.getD (r - dm) 0) else if r - dm = c - dm then ⟨1⟩ else ⟨0⟩) }

/-- Compute, reedsolomon.h:195-348. `rows`: the calls of SetOutput (reedsolomon.h:158-179). The result is `leftmatrix`, `none` if the
function returns false. -/
def compute (inp : Input) (rows : List (Bool × Nat)) : Option (Mat G16) :=
  let parpresent := (rows.filter (fun r => r.1)).length
  let parmissing := (rows.filter (fun r => !r.1)).length
  let dm := inp.missing.length
  let outcount := dm + parmissing
  let incount := inp.present.length + dm
  if dm > parpresent then none
  else if outcount = 0 then none
  else
    match takeRows true dm rows, takeRows false parmissing rows with
    | some pe, some me =>
      let s := matrices inp pe me
      if dm > 0 then (gauss outcount incount 0 dm s).map (fun s => s.left) else some s.left
    | _, _ => none

/-- The place of an element of GaloisLongMultiplyTable, galois.h:316-336 with `Bytes` = 2: the tables for the pairs of bytes (0,0), (0,1)
and (1,1), each with 256 rows of 256 elements. -/
def longTable (k ii jj : Nat) : G16 :=
  if k = 0 then ofValue ii * ofValue jj
  else if k = 1 then ofValue ii * ofValue (jj <<< 8)
  else ofValue (ii <<< 8) * ofValue (jj <<< 8)

/-- The array `L`, reedsolomon.cpp:286-304 and 309-324: `*LL + *HL`. -/
def tableL (factor : G16) (i : Nat) : Nat :=
  (longTable 0 (factor.value.toNat &&& 0xff) i + longTable 1 i ((factor.value.toNat >>> 8) &&& 0xff)).value.toNat

/-- The array `H`, reedsolomon.cpp:286-304 and 326-336: `*LH + *HH`. -/
def tableH (factor : G16) (i : Nat) : Nat :=
  (longTable 1 (factor.value.toNat &&& 0xff) i + longTable 2 ((factor.value.toNat >>> 8) &&& 0xff) i).value.toNat

/-- The body of the loop over the words, reedsolomon.cpp:345-356. -/
def processWord (factor : G16) (s d : Nat) : Nat :=
  d ^^^ tableL factor ((s >>> 0) &&& 0xff) ^^^ tableH factor ((s >>> 8) &&& 0xff)
    ^^^ (tableL factor ((s >>> 16) &&& 0xff) <<< 16) ^^^ (tableH factor ((s >>> 24) &&& 0xff) <<< 16)

/-- Process, reedsolomon.cpp:274-374, on a machine with little endian. The buffers are lists of words of 32 bits. -/
def process (factor : G16) (src dst : List Nat) : List Nat :=
  if factor = ⟨0⟩ then dst else List.zipWith (processWord factor) src dst

/-- The loop over the input blocks of ProcessData, par2repairer.cpp:2293-2372, which adds each block to all output buffers. Reading,
writing, the progress and cancelling are not modelled. -/
def processInputs (left : Mat G16) : Nat → List (List Nat) → (Nat → List Nat) → (Nat → List Nat)
  | _, [], out => out
  | c, src :: rest, out => processInputs left (c + 1) rest (fun k => process (left k c) src (out k))

/-- ProcessData, par2repairer.cpp:2276-2474, for the part of the blocks from `offset` with `len` words. -/
def processData (left : Mat G16) (missing : Nat) (inputs : List (List Nat)) (offset len : Nat) : List (List Nat) :=
  let out := processInputs left 0 (inputs.map (fun b => (b.drop offset).take len)) (fun _ => List.replicate len 0)
  (List.range missing).map out

/-- The loop over the parts of the blocks, par2repairer.cpp:299-318, with the number of iterations that may be left; `chunk`: the words of
`chunksize`. The output blocks get the parts one after the other. -/
def chunkLoop (left : Mat G16) (missing : Nat) (inputs : List (List Nat)) (blocksize chunk : Nat) : Nat → Nat → List (List Nat) → List (List Nat)
  | 0, _, acc => acc
  | n + 1, offset, acc =>
    if offset < blocksize then
      let len := min chunk (blocksize - offset)
      chunkLoop left missing inputs blocksize chunk n (offset + len)
        (List.zipWith (· ++ ·) acc (processData left missing inputs offset len))
    else acc

/-- ComputeRSmatrix, par2repairer.cpp:2152-2246, and the computation of the missing blocks, par2repairer.cpp:2283-2372 and 299-318.
`present`: which blocks were found; `found`: these blocks; `packets`: the recovery packets by exponent (`recoverypacketmap`). `none`: no
blocks are computed; if there are fewer packets than missing blocks Process returns before (par2repairer.cpp:248, 1971). Without missing
blocks nothing is computed (par2repairer.cpp:2240 and 2374-2438). The number of an exponent is cut to 16 bits (par2repairer.cpp:2232). -/
def repair (blocksize chunk : Nat) (present : List Bool) (found : List (List Nat)) (packets : List (Nat × List Nat)) :
    Option (List (List Nat)) :=
  match setInput present with
  | none => none
  | some inp =>
    let dm := inp.missing.length
    if packets.length < dm then none
    else if dm = 0 then some []
    else
      let used := packets.take dm
      let inputs := found ++ used.map (·.2)
      match compute inp (used.map (fun p => (true, p.1 % 65536))) with
      | none => none
      | some left => some (chunkLoop left dm inputs blocksize chunk blocksize 0 (List.replicate dm []))

end Verif.Rs
