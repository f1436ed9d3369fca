import Verif.Driver.Args
/-! # Specification: meaning of the option table -/
namespace Verif.Driver.Spec
open Verif.Driver

/-- Parts of the spelling of an option. -/
inductive Piece where
  | lit (s : Bytes)
  /-- `[s]`: may be left out -/
  | opt (s : Bytes)
  /-- `{a|b|c}`: one of them -/
  | alt (ss : List Bytes)
  deriving DecidableEq

/-- Documented option: exact spelling; prefix with attached value or value in the next argument
(`-o:`); prefix with attached value only (`-W<`, `-std=`). -/
inductive Kind where
  | exact (ps : List Piece)
  | sep (p : Bytes)
  | joinedLt (p : Bytes)
  | joinedEq (p : Bytes)
  deriving DecidableEq

/-- Spelling of alternatives. -/
def altText : List Bytes → Bytes
  | [] => []
  | [s] => s
  | s :: ss => s ++ chr% '|' :: altText ss

/-- Spelling of pieces in the table. -/
def spell : List Piece → Bytes
  | [] => []
  | .lit s :: ps => s ++ spell ps
  | .opt s :: ps => chr% '[' :: (s ++ chr% ']' :: spell ps)
  | .alt ss :: ps => chr% '{' :: (altText ss ++ chr% '}' :: spell ps)

def Kind.rule : Kind → Bytes
  | .exact ps => spell ps
  | .sep p => p ++ [chr% ':']
  | .joinedLt p => p ++ [chr% '<']
  | .joinedEq p => p

/-- Arguments covered by an exact spelling.  With `raw` also the brackets themselves. -/
inductive Lang (raw : Bool) : List Piece → Bytes → Prop
  | nil : Lang raw [] []
  | lit {s ps a} : Lang raw ps a → Lang raw (.lit s :: ps) (s ++ a)
  | optIn {s ps a} : Lang raw ps a → Lang raw (.opt s :: ps) (s ++ a)
  | optOut {s ps a} : Lang raw ps a → Lang raw (.opt s :: ps) a
  | alt {s ss ps a} : s ∈ ss → Lang raw ps a → Lang raw (.alt ss :: ps) (s ++ a)
  | optRaw {s ps a} : raw = true → Lang raw ps a →
      Lang raw (.opt s :: ps) (chr% '[' :: (s ++ chr% ']' :: a))
  | altRaw {ss ps a} : raw = true → Lang raw ps a →
      Lang raw (.alt ss :: ps) (chr% '{' :: (altText ss ++ chr% '}' :: a))

/-- The option takes the argument, giving `text` to its handler and using `used` arguments. -/
def Kind.Takes : Kind → Bytes → List Bytes → Bytes → Nat → Prop
  | .exact ps, arg, _, text, used => Lang false ps arg ∧ text = arg ∧ used = 1
  | .sep p, arg, more, text, used =>
    (text ≠ [] ∧ arg = p ++ text ∧ used = 1) ∨ (arg = p ∧ more.head? = some text ∧ used = 2)
  | .joinedLt p, arg, _, text, used => text ≠ [] ∧ arg = p ++ text ∧ used = 1
  | .joinedEq p, arg, _, text, used => text ≠ [] ∧ arg = p ++ text ∧ used = 1

/-- The option is there but its value is missing. -/
def Kind.Lacks : Kind → Bytes → List Bytes → Prop
  | .exact _, _, _ => False
  | .sep p, arg, more => arg = p ∧ more = []
  | .joinedLt p, arg, _ => arg = p
  | .joinedEq p, arg, _ => arg = p

/-- Neither. -/
def Kind.Ignores (k : Kind) (arg : Bytes) (more : List Bytes) : Prop :=
  (∀ text used, ¬ k.Takes arg more text used) ∧ ¬ k.Lacks arg more

/-- The first option that has to do with the argument decides. -/
inductive Decides (ks : List Kind) (arg : Bytes) (more : List Bytes) : Nat → Kind → Prop
  | mk {pre k post} : ks = pre ++ k :: post → (∀ x ∈ pre, x.Ignores arg more) →
      Decides ks arg more pre.length k

/-- The calls made for a command line, and the result; a handler returning non-zero ends the run. -/
inductive Parses (ks : List Kind) (cb : Nat → Bytes → Int) : List Bytes → List Call → Int → Prop
  | nil : Parses ks cb [] [] 0
  | input {arg more calls r} : arg.head? ≠ some (chr% '-') → cb ks.length arg = 0 →
      Parses ks cb more calls r → Parses ks cb (arg :: more) ((ks.length, arg) :: calls) r
  | inputStop {arg more} : arg.head? ≠ some (chr% '-') → cb ks.length arg ≠ 0 →
      Parses ks cb (arg :: more) [(ks.length, arg)] (cb ks.length arg)
  | option {arg more i k text used calls r} : arg.head? = some (chr% '-') → Decides ks arg more i k →
      k.Takes arg more text used → cb i text = 0 → Parses ks cb (more.drop (used - 1)) calls r →
      Parses ks cb (arg :: more) ((i, text) :: calls) r
  | optionStop {arg more i k text used} : arg.head? = some (chr% '-') → Decides ks arg more i k →
      k.Takes arg more text used → cb i text ≠ 0 →
      Parses ks cb (arg :: more) [(i, text)] (cb i text)
  | lacks {arg more i k} : arg.head? = some (chr% '-') → Decides ks arg more i k → k.Lacks arg more →
      Parses ks cb (arg :: more) [] 1
  | unknown {arg more} : arg.head? = some (chr% '-') → (∀ k ∈ ks, k.Ignores arg more) →
      Parses ks cb (arg :: more) [] 1

/-- Well-formed spelling: brackets only as brackets, and the choice is determined by the text. -/
def Clear : List Piece → Prop
  | [] => True
  | .lit s :: ps => chr% '[' ∉ s ∧ chr% '{' ∉ s ∧ Clear ps
  | .opt o :: ps => chr% '[' ∉ o ∧ chr% '{' ∉ o ∧ chr% ']' ∉ o ∧
      (∃ c s ps', ps = .lit (c :: s) :: ps' ∧ c ≠ chr% '[' ∧ ∃ d, o.head? = some d ∧ d ≠ c) ∧ Clear ps
  | .alt ss :: ps => ss ≠ [] ∧ (∀ s ∈ ss, chr% '[' ∉ s ∧ chr% '{' ∉ s ∧ chr% '|' ∉ s ∧ chr% '}' ∉ s) ∧
      (∀ a ∈ ss, ∀ b ∈ ss, a <+: b → a = b) ∧ (∀ s ∈ ss, s ≠ []) ∧ Clear ps

/-- Well-formed table entry. -/
def Kind.WF : Kind → Prop
  | .exact ps => Clear ps ∧ ∃ c, (spell ps).getLast? = some c ∧ c ≠ chr% ':' ∧ c ≠ chr% '<' ∧ c ≠ chr% '='
  | .sep _ => True
  | .joinedLt _ => True
  | .joinedEq p => p.getLast? = some (chr% '=')

/-- The option table of the driver, in words. -/
def driverKinds : List Kind :=
  let l (s : Bytes) : Kind := .exact [.lit s]
  let f (s : Bytes) : Kind := .exact [.lit (str% "-f"), .opt (str% "no-"), .lit s]
  let m (s : Bytes) : Kind := .exact [.lit (str% "-m"), .opt (str% "no-"), .lit s]
  [l (str% "-S"), l (str% "-E"), l (str% "-c"), l (str% "-v"), l (str% "-w"), l (str% "-g"), l (str% "-W"),
   .joinedLt (str% "-W"), .sep (str% "-x"),
   f (str% "PIC"), f (str% "fast-math"), f (str% "strict-aliasing"), f (str% "common"),
   .joinedEq (str% "-fvisibility="), m (str% "sse"), m (str% "sse2"), m (str% "3dnow"), m (str% "mmx"),
   l (str% "-dot"), l (str% "--help"), l (str% "--version"), .joinedEq (str% "-march="), .sep (str% "-o"),
   .sep (str% "-I"), .exact [.lit (str% "-O"), .alt [str% "0", str% "1", str% "2", str% "3"]],
   .joinedEq (str% "-std="), .sep (str% "-D"), l (str% "--dump-symbols"), l (str% "--dump-types"),
   l (str% "-nostdinc"), .sep (str% "-isystem"), .sep (str% "-include"), .joinedEq (str% "-print-file-name="),
   l (str% "-pipe"), l (str% "-pedantic"), l (str% "-MD"), l (str% "-MP"), l (str% "-Wl,"), l (str% "-rdynamic"),
   l (str% "-shared"), l (str% "-static"), .exact [.lit (str% "-"), .opt (str% "no"), .lit (str% "pie")],
   f (str% "PIE"), .sep (str% "-l"), .sep (str% "-L")]

end Verif.Driver.Spec
