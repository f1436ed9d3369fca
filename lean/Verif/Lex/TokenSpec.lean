import Verif.Bytes
/-!
# Specification of tokens (C99 6.4)

Independent of the model; only lists of spellings and the numbers `enum token_type` gives them.
-/
namespace Verif.Lex.Spec

/-- Punctuators (C99 6.4.6 without the digraphs) with their token numbers (token.h). -/
def punctuators : List (Bytes × Nat) := [
  (str% "[", 91), (str% "]", 93), (str% "(", 40), (str% ")", 41), (str% "{", 123),
  (str% "}", 125), (str% ".", 46), (str% "->", 0x47), (str% "++", 0x48), (str% "--", 0x49),
  (str% "&", 38), (str% "*", 42), (str% "+", 43), (str% "-", 45), (str% "~", 126),
  (str% "!", 33), (str% "/", 47), (str% "%", 37), (str% "<<", 0x4a), (str% ">>", 0x4b),
  (str% "<", 60), (str% ">", 62), (str% "<=", 0x43), (str% ">=", 0x44), (str% "==", 0x45),
  (str% "!=", 0x46), (str% "^", 94), (str% "|", 124), (str% "&&", 0x42), (str% "||", 0x41),
  (str% "?", 63), (str% ":", 58), (str% ";", 59), (str% "...", 0x57), (str% "=", 61),
  (str% "*=", 0x4c), (str% "/=", 0x4d), (str% "%=", 0x4e), (str% "+=", 0x4f),
  (str% "-=", 0x50), (str% "<<=", 0x51), (str% ">>=", 0x52), (str% "&=", 0x53),
  (str% "^=", 0x54), (str% "|=", 0x55), (str% ",", 44), (str% "#", 35), (str% "##", 0x56)]

/-- The digraphs of C99 6.4.6 and the punctuators they stand for. -/
def digraphs : List (Bytes × Nat) := [
  (str% "<:", 91), (str% ":>", 93), (str% "<%", 123), (str% "%>", 125), (str% "%:", 35),
  (str% "%:%:", 0x56)]

/-- `w` is the longest of the spellings in `ps` that `s` starts with. -/
def Longest (ps : List (Bytes × Nat)) (s w : Bytes) (id : Nat) : Prop :=
  (w, id) ∈ ps ∧ w <+: s ∧ ∀ p ∈ ps, p.1 <+: s → p.1.length ≤ w.length

/-- Letters and underscore. -/
def nondigit (c : UInt8) : Bool :=
  (65 ≤ c.toNat && c.toNat ≤ 90) || (97 ≤ c.toNat && c.toNat ≤ 122) || c.toNat = 95

def digit (c : UInt8) : Bool := 48 ≤ c.toNat && c.toNat ≤ 57

def identChar (c : UInt8) : Bool := nondigit c || digit c

/-- Keywords: C89 words, words only reserved in C99, C11 words and GNU spellings the compiler
accepts in every mode. -/
def keywords89 : List (Bytes × Nat) := [
  (str% "auto", 1), (str% "break", 2), (str% "case", 3), (str% "char", 4), (str% "const", 5),
  (str% "continue", 6), (str% "default", 7), (str% "do", 8), (str% "double", 9),
  (str% "else", 11), (str% "enum", 12), (str% "extern", 13), (str% "float", 14),
  (str% "for", 15), (str% "goto", 16), (str% "if", 17), (str% "int", 18), (str% "long", 19),
  (str% "register", 20), (str% "return", 21), (str% "short", 22), (str% "signed", 23),
  (str% "sizeof", 24), (str% "static", 25), (str% "struct", 26), (str% "switch", 27),
  (str% "typedef", 28), (str% "union", 29), (str% "unsigned", 30), (str% "void", 31),
  (str% "volatile", 34), (str% "while", 39),
  (str% "_Alignof", 0x31), (str% "_Bool", 0x32), (str% "_Noreturn", 0x33),
  (str% "_Static_assert", 0x38),
  (str% "__asm", 0x68), (str% "__asm__", 0x68), (str% "__inline", 32), (str% "__inline__", 32),
  (str% "__signed", 23), (str% "__signed__", 23), (str% "__restrict", 0x30),
  (str% "__restrict__", 0x30), (str% "__volatile", 34), (str% "__volatile__", 34)]

def keywords (c99 : Bool) : List (Bytes × Nat) :=
  if c99 then keywords89 ++ [(str% "inline", 32), (str% "restrict", 0x30)] else keywords89

/-- Token number of a word: that of the keyword with this spelling, otherwise IDENTIFIER. -/
def wordId (c99 : Bool) (w : Bytes) : Nat := ((keywords c99).lookup w).getD 117

/-- Preprocessing numbers, C99 6.4.8 (in C89 without the `p` exponents). -/
inductive PPNum (c99 : Bool) : Bytes → Prop
  | digit {d : UInt8} : digit d = true → PPNum c99 [d]
  | dot {d : UInt8} : digit d = true → PPNum c99 [46, d]
  | next {p : Bytes} {c : UInt8} : PPNum c99 p → identChar c = true → PPNum c99 (p ++ [c])
  | period {p : Bytes} : PPNum c99 p → PPNum c99 (p ++ [46])
  | exp {p : Bytes} {e sg : UInt8} : PPNum c99 p →
      (e ∈ str% "eE" ∨ (c99 = true ∧ e ∈ str% "pP")) → sg ∈ str% "+-" →
      PPNum c99 (p ++ [e, sg])

end Verif.Lex.Spec

namespace Verif.Lex.Spec

/-- Words never treated as macro names by the compiler; C makes no such exception. -/
def neverMacro : List Bytes := [str% "_Alignof", str% "_Bool", str% "__asm", str% "__asm__"]

end Verif.Lex.Spec
