import Verif.Spec.Dir

/-! Numerals, and which files belong to an index. Written without reference to the code. -/

namespace Ferret.Spec

/-- The digit for d: 0–9, then a–z. -/
def digit (d : Nat) : Byte := UInt8.ofNat (if d < 10 then 48 + d else 87 + d)

/-- The numeral of n in the given base. `fuel` bounds the number of divisions. -/
def numeralF (base : Nat) : Nat → Nat → Name
  | 0, n => [digit (n % base)]
  | k + 1, n => if n < base then [digit n] else numeralF base k (n / base) ++ [digit (n % base)]

def numeral (base n : Nat) : Name := numeralF base n n

/-- A segment name: an underscore and base-36 digits. -/
def isSegName (n : Name) : Bool :=
  match n with
  | 95 :: ds => !ds.isEmpty && ds.all fun c => (48 ≤ c && c ≤ 57) || (97 ≤ c && c ≤ 122)
  | _ => false

/-- The extensions of the files a segment's data is in: frq prx fdx fdt tfx tix tis. -/
def dataExts : List Name :=
  [[102, 114, 113], [112, 114, 120], [102, 100, 120], [102, 100, 116], [116, 102, 120], [116, 105, 120], [116, 105, 115]]

def cfsExt : Name := [99, 102, 115]
def delExt : Name := [100, 101, 108]

def segmentsName : Name := [115, 101, 103, 109, 101, 110, 116, 115]

/-- The file names an index makes. -/
inductive IndexFile where
  | segments (gen : Nat)
  | data (seg ext : Name)
  | compound (seg : Name)
  | deletions (seg : Name) (gen : Nat)
  /-- `sep`: written separately from a compound file (.s), else .f -/
  | norms (seg : Name) (gen field : Nat) (sep : Bool)
  deriving DecidableEq

def IndexFile.name : IndexFile → Name
  | .segments g => segmentsName ++ 95 :: numeral 36 g
  | .data s e => s ++ 46 :: e
  | .compound s => s ++ 46 :: cfsExt
  | .deletions s g => s ++ 95 :: numeral 36 g ++ 46 :: delExt
  | .norms s g f sep => s ++ 95 :: numeral 36 g ++ 46 :: (if sep then 115 else 102) :: numeral 10 f

/-- Is it a name of an index: segment names are segment names, extensions those of data files. -/
def IndexFile.valid : IndexFile → Bool
  | .segments g => g < 2 ^ 63
  | .data s e => isSegName s && dataExts.contains e
  | .compound s => isSegName s
  | .deletions s g => isSegName s && g < 2 ^ 31
  | .norms s g f _ => isSegName s && g < 2 ^ 31 && f < 2 ^ 31

/-- What a commit says about a segment: its name, whether its data is in a compound file, the
generation of its deletions if it has any, and of each field's norms. -/
structure SegDesc where
  name : Name
  compound : Bool
  del : Option Nat
  norms : List (Option Nat)

/-- The files a segment refers to. The norms of generation 0 of a compound segment are in the
compound file. -/
def SegDesc.refers (s : SegDesc) : IndexFile → Prop
  | .segments _ => False
  | .data seg e => s.compound = false ∧ seg = s.name ∧ e ∈ dataExts
  | .compound seg => s.compound = true ∧ seg = s.name
  | .deletions seg g => seg = s.name ∧ s.del = some g
  | .norms seg g f sep => seg = s.name ∧ s.norms[f]? = some (some g) ∧ sep = s.compound ∧ (s.compound = true → 0 < g)

/-- The files a commit of generation `gen` with these segments refers to. -/
def commitRefers (gen : Nat) (segs : List SegDesc) : IndexFile → Prop
  | .segments g => g = gen
  | f => ∃ s ∈ segs, s.refers f

end Ferret.Spec
