import Verif.Crc
import Verif.CrcSpec
/-!
Model of the quick verification of par2-sets: `ParChecker::VerifyDataFile` and its helpers (daemon/postprocess/ParChecker.cpp:1289-1598). The file on disk is a
list of bytes; what libpar2 knows of the file is the size of blocks and the CRCs of the blocks. Computing a CRC chunk by chunk is the CRC of the bytes
together (theorem `crc_is_crc32`, C03). Not modelled: failing reads and seeks. Offsets and sizes are natural numbers.
-/
namespace Verif.ParQuick
open Crc

abbrev Data := List (BitVec 8)

/-- ParChecker.h:77-92: an article of the file; a failed one has offset and size 0. -/
structure Segment where
  success : Bool
  offset : Nat
  size : Nat
  crc : BitVec 32
deriving DecidableEq, Repr

/-- `Crc32::Combine` with the length as a 32 bit number (ParChecker.cpp:1408, 1486, 1546, 1564); it never fails (`crc_combine`, C04). -/
def comb (a b : BitVec 32) (n : Nat) : BitVec 32 := (combine a b (n % 2 ^ 32)).getD 0#32

/-- GenerateCRC32Table (lib/par2/crc.cpp:38-51) with the polynomial 0xEDB88320 (crc.cpp:35). -/
def parTable : List (BitVec 32) :=
  (List.range 256).map (fun i => (List.range 8).foldl (fun c _ => (c >>> 1) ^^^ (if c.getLsbD 0 then 0xEDB88320#32 else 0#32)) (BitVec.ofNat 32 i))

/-- `CRCUpdateBlock` for zeros (lib/par2/crc.h:74-82). -/
def updateZeros : Nat → BitVec 32 → BitVec 32
  | 0, c => c
  | n + 1, c => updateZeros n (((c >>> 8) &&& 0x00ffffff#32) ^^^ parTable.getD (c &&& 0xFF#32).toNat 0#32)

/-- ParChecker.cpp:1396-1399, 1501: the CRC extended by zeros. -/
def extend (c : BitVec 32) (n : Nat) : BitVec 32 := updateZeros n (c ^^^ 0xFFFFFFFF#32) ^^^ 0xFFFFFFFF#32

/-- The CRC of the file from the CRCs of its blocks (ParChecker.cpp:1403-1409). -/
def parCrc (bs : Nat) : List (BitVec 32) → BitVec 32
  | [] => 0#32
  | c :: cs => cs.foldl (fun a b => comb a b bs) c

/-- ParChecker::VerifySuccessDataFile (ParChecker.cpp:1389-1413). -/
def verifySuccess (bs : Nat) (crcs : List (BitVec 32)) (fileSize : Nat) (downloadCrc : BitVec 32) : Bool :=
  parCrc bs crcs == extend downloadCrc (if bs * crcs.length > fileSize then bs * crcs.length - fileSize else 0)

/-- The loop over the articles for one block (ParChecker.cpp:1430-1456): `cur` is the expected offset once the block was found. -/
def scan (bStart bEnd : Nat) : Option Nat → List Segment → Bool
  | _, [] => false
  | cur, s :: rest =>
    let cur := match cur with
      | none => if s.success && decide (s.offset ≤ bStart) && decide (bStart ≤ s.offset + s.size) then some s.offset else none
      | some c => some c
    match cur with
    | none => scan bStart bEnd none rest
    | some c =>
      if !(s.success && s.offset == c) then false
      else if bEnd ≤ s.offset + s.size then true
      else scan bStart bEnd (some (s.offset + s.size)) rest

/-- Whether a block is presumably valid (ParChecker.cpp:1428-1456). -/
def validBlock (bs fileSize : Nat) (segs : List Segment) (i : Nat) : Bool :=
  let bStart := i * bs
  let bEnd := if bStart + bs < fileSize - 1 then bStart + bs else fileSize - 1
  scan bStart bEnd none segs

/-- The bytes read by DumbCalcFileRangeCrc (ParChecker.cpp:1577-1598): the loop stops if fewer bytes were read than the buffer holds, or at `stop`.
`fuel` bounds the number of rounds. -/
def dumb (buf : Nat) (data : Data) : (fuel start stop : Nat) → Data
  | 0, _, _ => []
  | fuel + 1, start, stop =>
    if start < stop then
      let need := if stop - start + 1 > buf then buf else stop - start + 1
      let got := (data.drop start).take need
      got ++ (if got.length = buf then dumb buf data fuel (start + got.length) stop else [])
    else []

/-- DumbCalcFileRangeCrc; the buffer has 64 KB (ParChecker.cpp:1584). -/
def dumbCrc (data : Data) (start stop : Nat) : BitVec 32 := crc32 (dumb 65536 data (stop - start + 1) start stop)

/-- SmartCalcFileRangeCrc (ParChecker.cpp:1523-1572). -/
def smart (data : Data) (start stop : Nat) : List Segment → (started : Bool) → BitVec 32 → BitVec 32
  | [], _, crc => crc
  | s :: rest, started, crc =>
    let head := !started && decide (start < s.offset)
    let crc := if head then dumbCrc data start (s.offset - 1) else crc
    if head && decide (stop ≤ s.offset + s.size) then crc
    else
      let started := started || head
      let whole := decide (start ≤ s.offset) && decide (s.offset + s.size ≤ stop)
      let crc := if whole then (if started then comb crc s.crc s.size else s.crc) else crc
      let started := started || whole
      if s.offset + s.size = stop then crc
      else if stop < s.offset + s.size then comb crc (dumbCrc data s.offset stop) (stop - s.offset + 1)
      else smart data start stop rest started crc

/-- The CRC of the blocks `first` to `last` as downloaded (ParChecker.cpp:1492-1502). -/
def rangeCrc (bs : Nat) (data : Data) (segs : List Segment) (first last : Nat) : BitVec 32 :=
  let bytesStart := first * bs
  let bytesEnd := last * bs + bs - 1
  let c := smart data bytesStart (if bytesEnd < data.length - 1 then bytesEnd else data.length - 1) segs false 0#32
  if bytesEnd > data.length - 1 then extend c (bytesEnd - (data.length - 1)) else c

/-- The loop over the blocks (ParChecker.cpp:1472-1512): `i` is the number of the block, `first` the first block of the current range. -/
def ranges (bs : Nat) (data : Data) (segs : List Segment) : (i : Nat) → (first : Option Nat) → (par : BitVec 32) → List (Bool × BitVec 32) → Bool
  | i, first, par, [] =>
    match first with
    | none => true
    | some f => rangeCrc bs data segs f (i - 1) == par
  | i, first, par, (true, crc) :: rest =>
    match first with
    | none => ranges bs data segs (i + 1) (some i) crc rest
    | some f => ranges bs data segs (i + 1) (some f) (comb par crc bs) rest
  | i, first, par, (false, _) :: rest =>
    match first with
    | none => ranges bs data segs (i + 1) none par rest
    | some f => rangeCrc bs data segs f (i - 1) == par && ranges bs data segs (i + 1) none par rest

/-- The presumably valid blocks (ParChecker.cpp:1424-1457). -/
def validBlocks (bs : Nat) (crcs : List (BitVec 32)) (fileSize : Nat) (segs : List Segment) : List Bool :=
  (List.range crcs.length).map (validBlock bs fileSize segs)

/-- ParChecker::VerifyPartialDataFile (ParChecker.cpp:1415-1517). The end marker (1474) is the end of the list. -/
def verifyPartial (bs : Nat) (crcs : List (BitVec 32)) (data : Data) (segs : List Segment) : Bool :=
  ranges bs data segs 0 none 0#32 ((validBlocks bs crcs data.length segs).zip crcs)

/-- ParChecker::EFileStatus (ParChecker.h:114-120). -/
inductive Status where
  | unknown | success | partly | failure
deriving DecidableEq, Repr

/-- A block of the set in the table of libpar2: its file, its CRC, where it was found. -/
structure Entry where
  file : Nat
  crc : BitVec 32
  found : Option (Nat × Nat)
deriving DecidableEq, Repr

/-- VerificationHashTable::Lookup (lib/par2/verificationhashtable.h:251-259): an entry with this CRC; here the first one of the list. -/
def lookup (tab : List Entry) (crc : BitVec 32) : Option Nat := tab.findIdx? (fun e => e.crc == crc)

def setFound (tab : List Entry) (k : Nat) (v : Option (Nat × Nat)) : List Entry := tab.modify k (fun e => { e with found := v })

/-- Attaching the blocks to the file (ParChecker.cpp:1353-1380): blocks with `true` are attached at their offset in the disk file; if a CRC is not found, belongs
to another file or is already used, what was attached is undone. `i` is the number of the block. -/
def attach (bs file disk : Nat) : (i : Nat) → (undo : List Nat) → List (Bool × BitVec 32) → (tab : List Entry) → (available : Nat) → Option Nat × List Entry
  | _, _, [], tab, available => (some available, tab)
  | i, undo, (false, _) :: rest, tab, available => attach bs file disk (i + 1) undo rest tab available
  | i, undo, (true, crc) :: rest, tab, available =>
    match (lookup tab crc).bind (fun k => tab[k]?.map (fun e => (k, e))) with
    | some (k, e) =>
      if e.file != file || e.found.isSome then (none, undo.foldl (fun t u => setFound t u none) tab)
      else attach bs file disk (i + 1) (undo ++ [k]) rest (setFound tab k (some (disk, i * bs))) (available + 1)
    | none => (none, undo.foldl (fun t u => setFound t u none) tab)

/-- What is known of a file when its verification starts: whether the stage is the verification of sources, whether libpar2 has found the file and its packet
with CRCs, the disk file, what was downloaded. -/
structure FileIn where
  sources : Bool
  hasTarget : Bool
  hasPacket : Bool
  file : Nat
  disk : Nat
  data : Data
  crcs : List (BitVec 32)
  status : Status
  downloadCrc : BitVec 32
  segs : List Segment

/-- ParChecker::VerifyDataFile (ParChecker.cpp:1303-1387): status, available blocks if they were counted, the table. -/
def verifyFile (bs : Nat) (f : FileIn) (tab : List Entry) : Status × Option Nat × List Entry :=
  if !f.sources then (.success, none, tab)
  else if !f.hasTarget || !f.hasPacket then (.unknown, none, tab)
  else if f.data.length = 0 ∧ f.crcs.length > 0 then (.failure, some 0, tab)
  else
    match f.status with
    | .failure => (.failure, none, tab)
    | .unknown => (.unknown, none, tab)
    | .success =>
      if !verifySuccess bs f.crcs f.data.length f.downloadCrc then (.unknown, none, tab)
      else
        match attach bs f.file f.disk 0 [] (f.crcs.map (fun c => (true, c))) tab 0 with
        | (some n, t) => (.success, some n, t)
        | (none, t) => (.unknown, none, t)
    | .partly =>
      if !verifyPartial bs f.crcs f.data f.segs then (.unknown, none, tab)
      else
        match attach bs f.file f.disk 0 [] ((validBlocks bs f.crcs f.data.length f.segs).zip f.crcs) tab 0 with
        | (some n, t) => (.partly, some n, t)
        | (none, t) => (.unknown, none, t)

end Verif.ParQuick
