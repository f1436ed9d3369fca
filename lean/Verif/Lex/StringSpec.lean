import Verif.Lex.Strings
/-!
# Specification of string literals, after C99 6.4.4.4 and 6.4.5

`Body text bytes`: the characters `text` between the quotes of a string literal denote the
byte sequence `bytes`.  Octal escapes take up to three digits, hexadecimal ones as many as
there are.
-/
namespace Verif.Lex.Spec

/-- C99 simple escape sequences. -/
def simple : List (UInt8 × UInt8) :=
  [(chr% 'a', 7), (chr% 'b', 8), (chr% 't', 9), (chr% 'n', 10), (chr% 'v', 11), (chr% 'f', 12),
   (chr% 'r', 13), (chr% '?', 63), (chr% '\'', 39), (chr% '"', 34), (chr% '\\', 92)]

def octs : List (UInt8 × Nat) :=
  [(chr% '0', 0), (chr% '1', 1), (chr% '2', 2), (chr% '3', 3), (chr% '4', 4), (chr% '5', 5),
   (chr% '6', 6), (chr% '7', 7)]

def hexs : List (UInt8 × Nat) :=
  octs ++ [(chr% '8', 8), (chr% '9', 9), (chr% 'a', 10), (chr% 'b', 11), (chr% 'c', 12),
   (chr% 'd', 13), (chr% 'e', 14), (chr% 'f', 15), (chr% 'A', 10), (chr% 'B', 11),
   (chr% 'C', 12), (chr% 'D', 13), (chr% 'E', 14), (chr% 'F', 15)]

/-- `Digits tbl base text n`: `text` is a digit string denoting `n`. -/
inductive Digits (tbl : List (UInt8 × Nat)) (base : Nat) : Bytes → Nat → Prop
  | nil : Digits tbl base [] 0
  | snoc {t : Bytes} {n : Nat} {c : UInt8} {v : Nat} :
      Digits tbl base t n → (c, v) ∈ tbl → Digits tbl base (t ++ [c]) (n * base + v)

/-- The text does not continue with a digit of the table. -/
def NoDigit (tbl : List (UInt8 × Nat)) (t : Bytes) : Prop :=
  ∀ c ∈ t.head?, ∀ v, (c, v) ∉ tbl

/-- `BodyP P text bytes`: as `Body` below, where moreover every text following `\\x` satisfies
`P`. -/
inductive BodyP (P : Bytes → Prop) : Bytes → Bytes → Prop
  | nil : BodyP P [] []
  | plain {c : UInt8} {t bs : Bytes} :
      c ≠ chr% '"' → c ≠ chr% '\\' → c ≠ chr% '\n' → BodyP P t bs → BodyP P (c :: t) (c :: bs)
  | simple {e v : UInt8} {t bs : Bytes} :
      (e, v) ∈ simple → BodyP P t bs → BodyP P (chr% '\\' :: e :: t) (v :: bs)
  | octal {ds t bs : Bytes} {n : Nat} :
      Digits octs 8 ds n → 1 ≤ ds.length → ds.length ≤ 3 →
      (ds.length < 3 → NoDigit octs t) → n < 256 → BodyP P t bs →
      BodyP P (chr% '\\' :: (ds ++ t)) (UInt8.ofNat n :: bs)
  | hex {ds t bs : Bytes} {n : Nat} :
      Digits hexs 16 ds n → 1 ≤ ds.length → NoDigit hexs t → n < 256 → P (ds ++ t) → BodyP P t bs →
      BodyP P (chr% '\\' :: chr% 'x' :: (ds ++ t)) (UInt8.ofNat n :: bs)

/-- The characters `text` between the quotes of a string literal denote `bytes`. -/
def Body (text bytes : Bytes) : Prop := BodyP (fun _ => True) text bytes

/-- Digits of a hexadecimal escape that start with `0x` and another hexadecimal digit. -/
def LooksPrefixed (t : Bytes) : Prop :=
  ∃ x d v rest, t = chr% '0' :: x :: d :: rest ∧ (x = chr% 'x' ∨ x = chr% 'X') ∧ (d, v) ∈ hexs

/-- A complete string literal with quotes. -/
def Literal (text bytes : Bytes) : Prop :=
  ∃ body, text = [chr% '"'] ++ body ++ [chr% '"'] ∧ Body body bytes

/-! ## Stringification, C99 6.10.3.2 -/

/-- Source spelling of a token. -/
def spelling (t : STok) : Bytes :=
  match t.kind with
  | .string => [chr% '"'] ++ t.raw ++ [chr% '"']
  | .char => [chr% '\''] ++ t.raw ++ [chr% '\'']
  | _ => t.raw

/-- Spelling of an argument: white space before the first token dropped, any other white space
between tokens becomes one blank. -/
def argText : List STok → Bytes
  | [] => []
  | t :: ts => spelling t ++ (ts.map (fun u =>
      (if u.ws = 0 then [] else [chr% ' ']) ++ spelling u)).flatten

end Verif.Lex.Spec
