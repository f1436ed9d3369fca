/-!
# What the layout has to be (C99 6.7.2.1, System V ABI chapter 3)
-/
namespace Verif.Layout.Spec

/-- The lowest multiple of `align` that is not below `low`. -/
def Lowest (align low x : Nat) : Prop :=
  align ∣ x ∧ low ≤ x ∧ ∀ y, align ∣ y → low ≤ y → x ≤ y

/-- The largest of the numbers. -/
def Largest (l : List Nat) (x : Nat) : Prop := x ∈ l ∧ ∀ y ∈ l, y ≤ x

/-- Offsets of members given by size and alignment that follow each other, starting at `start`, and
the end of the last one. -/
inductive Placed : Nat → List (Nat × Nat) → List Nat → Nat → Prop
  | nil (start : Nat) : Placed start [] [] start
  | cons {start size align offset : Nat} {ms : List (Nat × Nat)} {offs : List Nat} {fin : Nat} :
      Lowest align start offset → Placed (offset + size) ms offs fin →
      Placed start ((size, align) :: ms) (offset :: offs) fin

/-- Member declarations for the bit-field rules.  A name, or `none` for an unnamed field. -/
inductive Item (ι : Type)
  | plain (name : ι) (size align : Nat)
  | field (name : Option ι) (size width : Nat)
  | zero (size : Nat)

/-- The bits lie in one storage unit of the declared type. -/
def InUnit (unit pos width : Nat) : Prop := ∃ k, unit * k ≤ pos ∧ pos + width ≤ unit * (k + 1)

/-- Allocation in bits.  `Bits p item out p'`: with the first `p` bits in use, the declaration
produces the named member `out` (name, bit position, width in bits, zero for plain members) and leaves `p'` bits in use. -/
inductive Bits {ι : Type} : Nat → Item ι → List (ι × Nat × Nat) → Nat → Prop
  /-- A plain member starts at the next multiple of its alignment. -/
  | plain {p size align x : Nat} {name : ι} : Lowest (8 * align) p x →
      Bits p (.plain name size align) [(name, x, 0)] (x + 8 * size)
  /-- A field starts at the first position where it lies in one storage unit of its type. -/
  | field {p size width x : Nat} {name : Option ι} :
      p ≤ x → InUnit (8 * size) x width → (∀ y, p ≤ y → InUnit (8 * size) y width → x ≤ y) →
      Bits p (.field name size width) (name.toList.map fun n => (n, x, width)) (x + width)
  /-- A zero-width field advances to the next storage unit. -/
  | zero {p size x : Nat} : Lowest (8 * size) p x → Bits p (.zero size) [] x

/-- A list of declarations. -/
inductive AllBits {ι : Type} : Nat → List (Item ι) → List (ι × Nat × Nat) → Nat → Prop
  | nil (p : Nat) : AllBits p [] [] p
  | cons {p q r : Nat} {i : Item ι} {is : List (Item ι)} {o os : List (ι × Nat × Nat)} :
      Bits p i o q → AllBits q is os r → AllBits p (i :: is) (o ++ os) r

/-- Alignments that named members give to the struct. -/
def Item.aligns {ι : Type} : Item ι → List Nat
  | .plain _ _ a => [a]
  | .field (some _) s _ => [s]
  | .field none _ _ => []
  | .zero _ => []

/-- Sequences of declarations in which every run of adjacent bit-fields has one storage unit size
and begins on a boundary of that unit.  The first argument is the unit size of the current run (none
after a plain member and at the beginning), the second the number of bits in use. -/
inductive Uniform {ι : Type} : Option Nat → Nat → List (Item ι) → Prop
  | nil {c : Option Nat} {p : Nat} : Uniform c p []
  | plain {c : Option Nat} {p q size align : Nat} {name : ι} {o : List (ι × Nat × Nat)} {is : List (Item ι)} :
      Bits p (Item.plain name size align) o q → Uniform none q is →
      Uniform c p (.plain name size align :: is)
  | field {c : Option Nat} {p q size width : Nat} {name : Option ι} {o : List (ι × Nat × Nat)}
      {is : List (Item ι)} : (c = some size ∨ c = none ∧ 8 * size ∣ p) →
      Bits p (Item.field name size width) o q → Uniform (some size) q is →
      Uniform c p (.field name size width :: is)
  | zero {c : Option Nat} {p q size : Nat} {o : List (ι × Nat × Nat)}
      {is : List (Item ι)} : (c = some size ∨ c = none) →
      Bits p (Item.zero size : Item ι) o q → Uniform c q is → Uniform c p (.zero size :: is)

end Verif.Layout.Spec
