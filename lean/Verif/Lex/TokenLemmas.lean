import Verif.Tac
import Verif.Lex.Tokenize
import Verif.Lex.TokenSpec
import Verif.Lex.StringLemmas
/-! # Lemmas about the tokeniser -/
namespace Verif.Lex
open Spec

theorem T_eq {t id : Nat} {e : Bool} {raw : Bytes} (s : Bytes) (l : Nat)
    (h : basicToken.lookup t = some (id, e, raw)) :
    T s t l = .tok ⟨id, e, raw, 0⟩ (s.drop l) := by
  unfold T; rw [h]

theorem tk_42 (c99 : Bool) (r : Bytes) : tokenizeInternal c99 (42 :: r) =
    if at' r 0 = 61 then T (42 :: r) 76 2 else T (42 :: r) 42 1 := rfl

theorem tk_47 (c99 : Bool) (r : Bytes) : tokenizeInternal c99 (47 :: r) =
    if at' r 0 = 61 then T (47 :: r) 77 2 else T (47 :: r) 47 1 := rfl

theorem tk_37 (c99 : Bool) (r : Bytes) : tokenizeInternal c99 (37 :: r) =
    if at' r 0 = 61 then T (37 :: r) 78 2 else T (37 :: r) 37 1 := rfl

theorem tk_43 (c99 : Bool) (r : Bytes) : tokenizeInternal c99 (43 :: r) =
    if at' r 0 = 43 then T (43 :: r) 72 2 else if at' r 0 = 61 then T (43 :: r) 79 2 else T (43 :: r) 43 1 := rfl

theorem tk_45 (c99 : Bool) (r : Bytes) : tokenizeInternal c99 (45 :: r) =
    if at' r 0 = 62 then T (45 :: r) 71 2 else if at' r 0 = 45 then T (45 :: r) 73 2 else if at' r 0 = 61 then T (45 :: r) 80 2 else T (45 :: r) 45 1 := rfl

theorem tk_38 (c99 : Bool) (r : Bytes) : tokenizeInternal c99 (38 :: r) =
    if at' r 0 = 61 then T (38 :: r) 83 2 else if at' r 0 = 38 then T (38 :: r) 66 2 else T (38 :: r) 38 1 := rfl

theorem tk_94 (c99 : Bool) (r : Bytes) : tokenizeInternal c99 (94 :: r) =
    if at' r 0 = 61 then T (94 :: r) 84 2 else T (94 :: r) 94 1 := rfl

theorem tk_124 (c99 : Bool) (r : Bytes) : tokenizeInternal c99 (124 :: r) =
    if at' r 0 = 61 then T (124 :: r) 85 2 else if at' r 0 = 124 then T (124 :: r) 65 2 else T (124 :: r) 124 1 := rfl

theorem tk_61 (c99 : Bool) (r : Bytes) : tokenizeInternal c99 (61 :: r) =
    if at' r 0 = 61 then T (61 :: r) 69 2 else T (61 :: r) 61 1 := rfl

theorem tk_33 (c99 : Bool) (r : Bytes) : tokenizeInternal c99 (33 :: r) =
    if at' r 0 = 61 then T (33 :: r) 70 2 else T (33 :: r) 33 1 := rfl

theorem tk_35 (c99 : Bool) (r : Bytes) : tokenizeInternal c99 (35 :: r) =
    if at' r 0 = 35 then T (35 :: r) 86 2 else T (35 :: r) 35 1 := rfl

theorem tk_60 (c99 : Bool) (r : Bytes) : tokenizeInternal c99 (60 :: r) =
    if at' r 0 = 60 then (if at' r 1 = 61 then T (60 :: r) 81 3 else T (60 :: r) 74 2)
    else if at' r 0 = 61 then T (60 :: r) 67 2 else T (60 :: r) 60 1 := rfl

theorem tk_62 (c99 : Bool) (r : Bytes) : tokenizeInternal c99 (62 :: r) =
    if at' r 0 = 62 then (if at' r 1 = 61 then T (62 :: r) 82 3 else T (62 :: r) 75 2)
    else if at' r 0 = 61 then T (62 :: r) 68 2 else T (62 :: r) 62 1 := rfl

theorem tk_40 (c99 : Bool) (r : Bytes) : tokenizeInternal c99 (40 :: r) =
    T (40 :: r) 40 1 := rfl

theorem tk_41 (c99 : Bool) (r : Bytes) : tokenizeInternal c99 (41 :: r) =
    T (41 :: r) 41 1 := rfl

theorem tk_123 (c99 : Bool) (r : Bytes) : tokenizeInternal c99 (123 :: r) =
    T (123 :: r) 123 1 := rfl

theorem tk_125 (c99 : Bool) (r : Bytes) : tokenizeInternal c99 (125 :: r) =
    T (125 :: r) 125 1 := rfl

theorem tk_91 (c99 : Bool) (r : Bytes) : tokenizeInternal c99 (91 :: r) =
    T (91 :: r) 91 1 := rfl

theorem tk_93 (c99 : Bool) (r : Bytes) : tokenizeInternal c99 (93 :: r) =
    T (93 :: r) 93 1 := rfl

theorem tk_44 (c99 : Bool) (r : Bytes) : tokenizeInternal c99 (44 :: r) =
    T (44 :: r) 44 1 := rfl

theorem tk_59 (c99 : Bool) (r : Bytes) : tokenizeInternal c99 (59 :: r) =
    T (59 :: r) 59 1 := rfl

theorem tk_58 (c99 : Bool) (r : Bytes) : tokenizeInternal c99 (58 :: r) =
    T (58 :: r) 58 1 := rfl

theorem tk_63 (c99 : Bool) (r : Bytes) : tokenizeInternal c99 (63 :: r) =
    T (63 :: r) 63 1 := rfl

theorem tk_126 (c99 : Bool) (r : Bytes) : tokenizeInternal c99 (126 :: r) =
    T (126 :: r) 126 1 := rfl

theorem tk_92 (c99 : Bool) (r : Bytes) : tokenizeInternal c99 (92 :: r) =
    T (92 :: r) 92 1 := rfl

theorem tk_36 (c99 : Bool) (r : Bytes) : tokenizeInternal c99 (36 :: r) =
    T (36 :: r) 36 1 := rfl

theorem tk_64 (c99 : Bool) (r : Bytes) : tokenizeInternal c99 (64 :: r) =
    T (64 :: r) 64 1 := rfl

theorem tk_96 (c99 : Bool) (r : Bytes) : tokenizeInternal c99 (96 :: r) =
    T (96 :: r) 96 1 := rfl

theorem tk_46 (c99 : Bool) (r : Bytes) : tokenizeInternal c99 (46 :: r) =
    if at' r 0 ≥ 128 then .ub else if isDigit (at' r 0) = true then stringtonum c99 (46 :: r)
    else if at' r 0 = 46 ∧ at' r 1 = 46 then T (46 :: r) 87 3 else T (46 :: r) 46 1 := rfl

theorem pre_one (a : UInt8) (r : Bytes) (h : a ≠ 0) : at' r 0 = a → [a] <+: r := by
  cases r with
  | nil => intro h'; exact absurd h'.symm h
  | cons b r => intro h'; exact ⟨r, by rw [← h']; rfl⟩

theorem pre_two (a b : UInt8) (r : Bytes) (ha : a ≠ 0) (hb : b ≠ 0) :
    at' r 0 = a → at' r 1 = b → [a, b] <+: r := by
  rcases r with _ | ⟨x, _ | ⟨y, r⟩⟩
  · intro h'; exact absurd h'.symm ha
  · intro _ h'; exact absurd h'.symm hb
  · intro h1 h2; exact ⟨r, by rw [← h1, ← h2]; rfl⟩

theorem lookup_punct : ∀ p ∈ punctuators, basicToken.lookup p.2 = some (p.2, false, p.1) := by
  decide +kernel

theorem punct_munch (c99 : Bool) (s w : Bytes) (id : Nat) (h : Longest punctuators s w id)
    (hdot : w = str% "." → at' s 1 < 128 ∧ isDigit (at' s 1) = false) :
    tokenizeInternal c99 s = .tok ⟨id, false, w, 0⟩ (s.drop w.length) := by
  obtain ⟨hm, ⟨r, rfl⟩, hl⟩ := h
  have h1 : ∀ a t, a ≠ 0 → (w ++ [a], t) ∈ punctuators → at' r 0 ≠ a := by
    intro a t ha hp he
    have := hl _ hp (by simpa using pre_one a r ha he)
    simp at this
  have h2 : ∀ a b t, a ≠ 0 → b ≠ 0 → (w ++ [a, b], t) ∈ punctuators → at' r 0 = a →
      at' r 1 ≠ b := by
    intro a b t ha hb hp he he'
    have := hl _ hp (by simpa using pre_two a b r ha hb he he')
    simp at this
  have hm' := hm
  have key : tokenizeInternal c99 (w ++ r) = T (w ++ r) id w.length := by
    clear hl
    simp only [punctuators, List.mem_cons, List.not_mem_nil, or_false, Prod.mk.injEq] at hm
    rcases hm with ⟨rfl, rfl⟩ | ⟨rfl, rfl⟩ | ⟨rfl, rfl⟩ | ⟨rfl, rfl⟩ | ⟨rfl, rfl⟩ | ⟨rfl, rfl⟩ | ⟨rfl, rfl⟩ | ⟨rfl, rfl⟩ | ⟨rfl, rfl⟩ | ⟨rfl, rfl⟩ | ⟨rfl, rfl⟩ | ⟨rfl, rfl⟩ | ⟨rfl, rfl⟩ | ⟨rfl, rfl⟩ | ⟨rfl, rfl⟩ | ⟨rfl, rfl⟩ | ⟨rfl, rfl⟩ | ⟨rfl, rfl⟩ | ⟨rfl, rfl⟩ | ⟨rfl, rfl⟩ | ⟨rfl, rfl⟩ | ⟨rfl, rfl⟩ | ⟨rfl, rfl⟩ | ⟨rfl, rfl⟩ | ⟨rfl, rfl⟩ | ⟨rfl, rfl⟩ | ⟨rfl, rfl⟩ | ⟨rfl, rfl⟩ | ⟨rfl, rfl⟩ | ⟨rfl, rfl⟩ | ⟨rfl, rfl⟩ | ⟨rfl, rfl⟩ | ⟨rfl, rfl⟩ | ⟨rfl, rfl⟩ | ⟨rfl, rfl⟩ | ⟨rfl, rfl⟩ | ⟨rfl, rfl⟩ | ⟨rfl, rfl⟩ | ⟨rfl, rfl⟩ | ⟨rfl, rfl⟩ | ⟨rfl, rfl⟩ | ⟨rfl, rfl⟩ | ⟨rfl, rfl⟩ | ⟨rfl, rfl⟩ | ⟨rfl, rfl⟩ | ⟨rfl, rfl⟩ | ⟨rfl, rfl⟩ | ⟨rfl, rfl⟩
    · rfl
    · rfl
    · rfl
    · rfl
    · rfl
    · rfl
    · have hd := hdot rfl
      change at' r 0 < 128 ∧ isDigit (at' r 0) = false at hd
      refine (tk_46 c99 r).trans ?_
      rw [if_neg (by have := hd.1; simpa using this), if_neg (by simp [hd.2]),
        if_neg (fun h => h2 46 46 87 (by decide) (by decide) (by decide) h.1 h.2)]
      rfl
    · rfl
    · rfl
    · rfl
    · exact (tk_38 c99 r).trans (by rw [if_neg (h1 61 83 (by decide) (by decide)), if_neg (h1 38 66 (by decide) (by decide))]; rfl)
    · exact (tk_42 c99 r).trans (by rw [if_neg (h1 61 76 (by decide) (by decide))]; rfl)
    · exact (tk_43 c99 r).trans (by rw [if_neg (h1 43 72 (by decide) (by decide)), if_neg (h1 61 79 (by decide) (by decide))]; rfl)
    · exact (tk_45 c99 r).trans (by rw [if_neg (h1 62 71 (by decide) (by decide)), if_neg (h1 45 73 (by decide) (by decide)), if_neg (h1 61 80 (by decide) (by decide))]; rfl)
    · rfl
    · exact (tk_33 c99 r).trans (by rw [if_neg (h1 61 70 (by decide) (by decide))]; rfl)
    · exact (tk_47 c99 r).trans (by rw [if_neg (h1 61 77 (by decide) (by decide))]; rfl)
    · exact (tk_37 c99 r).trans (by rw [if_neg (h1 61 78 (by decide) (by decide))]; rfl)
    · exact (tk_60 c99 (60 :: r)).trans 
        ((if_pos rfl).trans (if_neg (h1 61 81 (by decide) (by decide))))
    · exact (tk_62 c99 (62 :: r)).trans 
        ((if_pos rfl).trans (if_neg (h1 61 82 (by decide) (by decide))))
    · exact (tk_60 c99 r).trans (by rw [if_neg (h1 60 74 (by decide) (by decide)), if_neg (h1 61 67 (by decide) (by decide))]; rfl)
    · exact (tk_62 c99 r).trans (by rw [if_neg (h1 62 75 (by decide) (by decide)), if_neg (h1 61 68 (by decide) (by decide))]; rfl)
    · rfl
    · rfl
    · rfl
    · rfl
    · exact (tk_94 c99 r).trans (by rw [if_neg (h1 61 84 (by decide) (by decide))]; rfl)
    · exact (tk_124 c99 r).trans (by rw [if_neg (h1 61 85 (by decide) (by decide)), if_neg (h1 124 65 (by decide) (by decide))]; rfl)
    · rfl
    · rfl
    · rfl
    · rfl
    · rfl
    · rfl
    · exact (tk_61 c99 r).trans (by rw [if_neg (h1 61 69 (by decide) (by decide))]; rfl)
    · rfl
    · rfl
    · rfl
    · rfl
    · rfl
    · rfl
    · rfl
    · rfl
    · rfl
    · rfl
    · rfl
    · exact (tk_35 c99 r).trans (by rw [if_neg (h1 35 86 (by decide) (by decide))]; rfl)
    · rfl
  rw [key, T_eq _ _ (lookup_punct _ hm')]
/-! ## Words -/

theorem tk_97 (c99 : Bool) (r : Bytes) : tokenizeInternal c99 (97 :: r) =
    kw (97 :: r) 1 (str% "uto") 0x01 (strtoident (97 :: r)) := rfl

theorem tk_98 (c99 : Bool) (r : Bytes) : tokenizeInternal c99 (98 :: r) =
    kw (98 :: r) 1 (str% "reak") 0x02 (strtoident (98 :: r)) := rfl

theorem tk_99 (c99 : Bool) (r : Bytes) : tokenizeInternal c99 (99 :: r) =
    kw (99 :: r) 1 (str% "ase") 0x03 (kw (99 :: r) 1 (str% "har") 0x04 (if (str% "on").isPrefixOf r then kw (99 :: r) 3 (str% "st") 0x05 (kw (99 :: r) 3 (str% "tinue") 0x06 (strtoident (99 :: r))) else (strtoident (99 :: r)))) := rfl

theorem tk_100 (c99 : Bool) (r : Bytes) : tokenizeInternal c99 (100 :: r) =
    kw (100 :: r) 1 (str% "efault") 0x07 (if at' r 0 = chr% 'o' then kw (100 :: r) 2 [] 0x08 (kw (100 :: r) 2 (str% "uble") 0x09 (strtoident (100 :: r))) else (strtoident (100 :: r))) := rfl

theorem tk_101 (c99 : Bool) (r : Bytes) : tokenizeInternal c99 (101 :: r) =
    kw (101 :: r) 1 (str% "lse") 0x0b (kw (101 :: r) 1 (str% "num") 0x0c (kw (101 :: r) 1 (str% "xtern") 0x0d (strtoident (101 :: r)))) := rfl

theorem tk_102 (c99 : Bool) (r : Bytes) : tokenizeInternal c99 (102 :: r) =
    kw (102 :: r) 1 (str% "loat") 0x0e (kw (102 :: r) 1 (str% "or") 0x0f (strtoident (102 :: r))) := rfl

theorem tk_103 (c99 : Bool) (r : Bytes) : tokenizeInternal c99 (103 :: r) =
    kw (103 :: r) 1 (str% "oto") 0x10 (strtoident (103 :: r)) := rfl

theorem tk_105 (c99 : Bool) (r : Bytes) : tokenizeInternal c99 (105 :: r) =
    kw (105 :: r) 1 (str% "f") 0x11 (if at' r 0 = chr% 'n' then kw (105 :: r) 2 (str% "t") 0x12 (if c99 = true then kw (105 :: r) 2 (str% "line") 0x20 (strtoident (105 :: r)) else (strtoident (105 :: r))) else (strtoident (105 :: r))) := rfl

theorem tk_108 (c99 : Bool) (r : Bytes) : tokenizeInternal c99 (108 :: r) =
    kw (108 :: r) 1 (str% "ong") 0x13 (strtoident (108 :: r)) := rfl

theorem tk_114 (c99 : Bool) (r : Bytes) : tokenizeInternal c99 (114 :: r) =
    if at' r 0 = chr% 'e' then kw (114 :: r) 2 (str% "gister") 0x14 (kw (114 :: r) 2 (str% "turn") 0x15 (if c99 = true then kw (114 :: r) 2 (str% "strict") 0x30 (strtoident (114 :: r)) else (strtoident (114 :: r)))) else (strtoident (114 :: r)) := rfl

theorem tk_115 (c99 : Bool) (r : Bytes) : tokenizeInternal c99 (115 :: r) =
    kw (115 :: r) 1 (str% "hort") 0x16 (kw (115 :: r) 1 (str% "witch") 0x1b (if at' r 0 = chr% 'i' then kw (115 :: r) 2 (str% "gned") 0x17 (kw (115 :: r) 2 (str% "zeof") 0x18 (strtoident (115 :: r))) else if at' r 0 = chr% 't' then kw (115 :: r) 2 (str% "atic") 0x19 (kw (115 :: r) 2 (str% "ruct") 0x1a (strtoident (115 :: r))) else (strtoident (115 :: r)))) := rfl

theorem tk_116 (c99 : Bool) (r : Bytes) : tokenizeInternal c99 (116 :: r) =
    kw (116 :: r) 1 (str% "ypedef") 0x1c (strtoident (116 :: r)) := rfl

theorem tk_117 (c99 : Bool) (r : Bytes) : tokenizeInternal c99 (117 :: r) =
    if at' r 0 = chr% 'n' then kw (117 :: r) 2 (str% "ion") 0x1d (kw (117 :: r) 2 (str% "signed") 0x1e (strtoident (117 :: r))) else (strtoident (117 :: r)) := rfl

theorem tk_118 (c99 : Bool) (r : Bytes) : tokenizeInternal c99 (118 :: r) =
    if at' r 0 = chr% 'o' then kw (118 :: r) 2 (str% "id") 0x1f (kw (118 :: r) 2 (str% "latile") 0x22 (strtoident (118 :: r))) else (strtoident (118 :: r)) := rfl

theorem tk_119 (c99 : Bool) (r : Bytes) : tokenizeInternal c99 (119 :: r) =
    kw (119 :: r) 1 (str% "hile") 0x27 (strtoident (119 :: r)) := rfl

theorem tk_95 (c99 : Bool) (r : Bytes) : tokenizeInternal c99 (95 :: r) =
    if at' r 0 = chr% '_' then
      (if at' r 1 = chr% 'a' then kw2 (95 :: r) 3 (str% "sm") 0x68 (strtoident (95 :: r))
      else if at' r 1 = chr% 'i' then kw2 (95 :: r) 3 (str% "nline") 0x6a (strtoident (95 :: r))
      else if at' r 1 = chr% 's' then kw2 (95 :: r) 3 (str% "igned") 0x6c (strtoident (95 :: r))
      else if at' r 1 = chr% 'r' then kw2 (95 :: r) 3 (str% "estrict") 0x6e (strtoident (95 :: r))
      else if at' r 1 = chr% 'v' then kw2 (95 :: r) 3 (str% "olatile") 0x70 (strtoident (95 :: r))
      else (strtoident (95 :: r)))
    else if at' r 0 = chr% 'A' then kw (95 :: r) 2 (str% "lignof") 0x31 (strtoident (95 :: r))
    else if at' r 0 = chr% 'B' then kw (95 :: r) 2 (str% "ool") 0x32 (strtoident (95 :: r))
    else if at' r 0 = chr% 'N' then kw (95 :: r) 2 (str% "oreturn") 0x33 (strtoident (95 :: r))
    else if at' r 0 = chr% 'S' then kw (95 :: r) 2 (str% "tatic_assert") 0x38 (strtoident (95 :: r))
    else (strtoident (95 :: r)) := rfl

/-- Letters without keywords. -/
def plainLetters : Bytes := str% "ABCDEFGHIJKLMNOPQRSTUVWXYZhjkmnopqxyz"

theorem tk_plain (c99 : Bool) (c : UInt8) (r : Bytes) (h : c ∈ plainLetters) :
    tokenizeInternal c99 (c :: r) = strtoident (c :: r) := by
  simp only [plainLetters, List.mem_cons, List.not_mem_nil, or_false] at h
  rcases h with rfl | rfl | rfl | rfl | rfl | rfl | rfl | rfl | rfl | rfl | rfl | rfl | rfl | rfl | rfl | rfl | rfl | rfl | rfl | rfl | rfl | rfl | rfl | rfl | rfl | rfl | rfl | rfl | rfl | rfl | rfl | rfl | rfl | rfl | rfl | rfl | rfl <;> rfl

theorem nondigit_cases : ∀ c : UInt8, nondigit c = true →
    c ∈ plainLetters ∨ c ∈ str% "abcdefgilrstuvw_" := by
  apply forall_byte; decide +kernel

theorem isIdent_true : ∀ c : UInt8, isIdent c = some true ↔ identChar c = true := by
  apply forall_byte; decide +kernel

theorem isIdent_false : ∀ c : UInt8, isIdent c = some false ↔ identChar c = false ∧ c < 128 := by
  apply forall_byte; decide +kernel

/-- `s` is a word `run` followed by `rest`, which does not continue it. -/
structure Word (s run rest : Bytes) : Prop where
  eq : s = run ++ rest
  all : ∀ c ∈ run, identChar c = true
  stop : identChar (at' rest 0) = false ∧ at' rest 0 < 128

theorem identLoop_word : ∀ {run rest : Bytes}, (∀ c ∈ run, identChar c = true) →
    (identChar (at' rest 0) = false ∧ at' rest 0 < 128) →
    identLoop (run ++ rest) = some (run, rest)
  | [], rest, _, hs => by
    cases rest with
    | nil => rfl
    | cons c rest =>
      have : isIdent c = some false := (isIdent_false c).2 hs
      simp [identLoop, this]
  | c :: run, rest, ha, hs => by
    have : isIdent c = some true := (isIdent_true c).2 (ha c (by simp))
    simp [identLoop, this, identLoop_word (run := run) (fun x hx => ha x (by simp [hx])) hs]

theorem strtoident_word {c : UInt8} {run rest : Bytes} (h : Word (c :: (run ++ rest)) (c :: run) rest) :
    strtoident (c :: (run ++ rest)) = .tok ⟨tIDENTIFIER, true, c :: run, 0⟩ rest := by
  have := identLoop_word (run := run) (rest := rest) (fun x hx => h.all x (by simp [hx])) h.stop
  simp [strtoident, this]

theorem at_append (a b : Bytes) : at' (a ++ b) a.length = at' b 0 := by
  unfold at'
  rw [List.getD_eq_getElem?_getD, List.getD_eq_getElem?_getD, List.getElem?_append_right (by omega)]
  simp

theorem prefix_run : ∀ {pre run rest : Bytes}, pre <+: run ++ rest →
    (∀ c ∈ pre, identChar c = true) → identChar (at' rest 0) = false → pre <+: run
  | [], _, _, _, _, _ => List.nil_prefix
  | c :: pre, [], rest, hp, ha, hs => by
    exfalso
    cases rest with
    | nil => simp at hp
    | cons d rest =>
      simp only [List.nil_append, List.cons_prefix_cons] at hp
      have := ha c (by simp)
      rw [hp.1] at this
      simp [at', this] at hs
  | c :: pre, d :: run, rest, hp, ha, hs => by
    simp only [List.cons_append, List.cons_prefix_cons] at hp ⊢
    exact ⟨hp.1, prefix_run hp.2 (fun x hx => ha x (by simp [hx])) hs⟩

theorem word_next {run rest p q : Bytes} (h : Word (run ++ rest) run rest) (hq : run = p ++ q) :
    isIdent (at' (run ++ rest) p.length) = some (decide (run ≠ p)) := by
  subst hq
  rw [List.append_assoc, at_append]
  cases q with
  | nil => simpa using (isIdent_false _).2 h.stop
  | cons x q =>
    have : isIdent x = some true := (isIdent_true x).2 (h.all x (by simp))
    simpa [at'] using this

theorem kw_word {run rest p d : Bytes} (h : Word (run ++ rest) run rest) (w : Bytes) (t : Nat)
    (k : TRes) (hs : run ++ rest = p ++ d) (hw : ∀ c ∈ p ++ w, identChar c = true) :
    kw (run ++ rest) p.length w t k =
      if run = p ++ w then T (run ++ rest) t (p ++ w).length else k := by
  unfold kw
  have hd : (run ++ rest).drop p.length = d := by rw [hs]; simp
  rw [hd]
  by_cases hpre : w <+: d
  · have hb : w.isPrefixOf d = true := by simpa using hpre
    have hrun : p ++ w <+: run := by
      refine prefix_run ?_ hw h.stop.1
      rw [hs]
      exact (List.prefix_append_right_inj p).2 hpre
    obtain ⟨q, hq⟩ := hrun
    have := word_next h hq.symm
    rw [List.length_append] at this
    rw [hb, this]
    by_cases he : run = p ++ w <;> simp [he]
  · have hb : w.isPrefixOf d = false := by rw [Bool.eq_false_iff]; simpa using hpre
    rw [hb]
    have : run ≠ p ++ w := by
      intro he
      apply hpre
      rw [he, List.append_assoc] at hs
      exact ⟨rest, List.append_cancel_left hs⟩
    simp [this]

theorem kw2_word {run rest p d : Bytes} (h : Word (run ++ rest) run rest) (w : Bytes) (t : Nat)
    (k : TRes) (hs : run ++ rest = p ++ d) (hw : ∀ c ∈ p ++ w, identChar c = true) :
    kw2 (run ++ rest) p.length w t k =
      if run = p ++ w then T (run ++ rest) t (p ++ w).length
      else if run = p ++ w ++ [95, 95] then T (run ++ rest) (t + 1) (p ++ w ++ [95, 95]).length
      else k := by
  unfold kw2
  have hd : (run ++ rest).drop p.length = d := by rw [hs]; simp
  rw [hd]
  by_cases hpre : w <+: d
  · have hb : w.isPrefixOf d = true := by simpa using hpre
    have hrun : p ++ w <+: run := by
      refine prefix_run ?_ hw h.stop.1
      rw [hs]
      exact (List.prefix_append_right_inj p).2 hpre
    obtain ⟨q, hq⟩ := hrun
    have hn := word_next h hq.symm
    rw [List.length_append] at hn
    rw [hb, hn]
    by_cases he : run = p ++ w
    · simp [he]
    · simp only [he, ne_eq, not_false_eq_true, decide_true, if_true, if_false]
      have e1 : at' (run ++ rest) (p.length + w.length) = at' (q ++ rest) 0 := by
        rw [← hq, List.append_assoc, ← List.length_append, at_append]
      have e2 : at' (run ++ rest) (p.length + w.length + 1) = at' (q ++ rest) 1 := by
        rw [← hq, List.append_assoc, ← List.length_append]
        unfold at'
        rw [List.getD_eq_getElem?_getD, List.getD_eq_getElem?_getD,
          List.getElem?_append_right (by omega)]
        simp
      rw [e1, e2]
      by_cases hu : at' (q ++ rest) 0 = 95 ∧ at' (q ++ rest) 1 = 95
      · rw [if_pos hu]
        have hpre2 : [95, 95] <+: q := by
          refine prefix_run (rest := rest) (pre_two 95 95 _ (by decide) (by decide) hu.1 hu.2)
            ?_ h.stop.1
          decide
        obtain ⟨q2, rfl⟩ := hpre2
        have hn2 := word_next (p := p ++ w ++ [95, 95]) (q := q2) h (by rw [← hq]; simp)
        rw [List.length_append, List.length_append] at hn2
        simp only [List.length_cons, List.length_nil, Nat.zero_add, Nat.reduceAdd] at hn2
        rw [hn2]
        by_cases he2 : run = p ++ w ++ [95, 95]
        · simp [he2, Nat.add_assoc]
        · have : ¬ run = p ++ (w ++ [95, 95]) := by simpa using he2
          simp [this]
      · rw [if_neg hu]
        have : run ≠ p ++ w ++ [95, 95] := by
          intro he2
          rw [he2] at hq
          have hq' := List.append_cancel_left hq
          subst hq'
          exact hu ⟨rfl, rfl⟩
        rw [if_neg this]
  · have hb : w.isPrefixOf d = false := by rw [Bool.eq_false_iff]; simpa using hpre
    rw [hb]
    have h1 : run ≠ p ++ w := by
      intro he
      apply hpre
      rw [he, List.append_assoc] at hs
      exact ⟨rest, List.append_cancel_left hs⟩
    have h2 : run ≠ p ++ w ++ [95, 95] := by
      intro he
      apply hpre
      rw [he, List.append_assoc, List.append_assoc] at hs
      exact ⟨_, List.append_cancel_left hs⟩
    rw [if_neg h1, if_neg h2]
    rfl

/-- Words that the compiler never treats as macro names. -/
def notExpandable : List Bytes := [str% "_Alignof", str% "_Bool", str% "__asm", str% "__asm__"]

/-- The expected result for a word. -/
def Good (c99 : Bool) (run rest : Bytes) (r : TRes) : Prop :=
  r = .tok ⟨wordId c99 run, decide (run ∉ notExpandable), run, 0⟩ rest

theorem good_hit {c99 : Bool} {rest : Bytes} (K : Bytes) (t : Nat)
    (h : basicToken.lookup t = some (wordId c99 K, decide (K ∉ notExpandable), K)) :
    Good c99 K rest (T (K ++ rest) t K.length) := by
  unfold Good
  rw [T_eq _ _ h]
  simp

theorem wordId_none {c99 : Bool} {run : Bytes} (h : ∀ p ∈ keywords c99, p.1 ≠ run) :
    wordId c99 run = 117 := by
  unfold wordId
  have : (keywords c99).lookup run = none := by
    rw [List.lookup_eq_none_iff]
    intro p hp
    simpa using fun he => h p hp he.symm
  rw [this]
  rfl

theorem notExpandable_kw : ∀ c99, ∀ w ∈ notExpandable, ∃ p ∈ keywords c99, p.1 = w := by decide +kernel

theorem good_id {c99 : Bool} {c : UInt8} {run rest : Bytes}
    (hw : Word (c :: (run ++ rest)) (c :: run) rest)
    (h : ∀ p ∈ keywords c99, p.1 ≠ c :: run) :
    Good c99 (c :: run) rest (strtoident (c :: (run ++ rest))) := by
  unfold Good
  rw [strtoident_word hw, wordId_none h]
  have : (c :: run) ∉ notExpandable := by
    intro hm
    obtain ⟨p, hp, he⟩ := notExpandable_kw c99 _ hm
    exact h p hp he
  simp [this, tIDENTIFIER]

theorem next_char {run rest : Bytes} {x : UInt8} (hs : identChar (at' rest 0) = false)
    (h : at' (run ++ rest) 0 = x) (hx : identChar x = true) : ∃ r, run = x :: r := by
  cases run with
  | nil => rw [List.nil_append] at h; rw [h, hx] at hs; simp at hs
  | cons y r => exact ⟨r, by rw [← h]; rfl⟩

/-- Spellings of keywords with a given first letter. -/
def kwFrom (c99 : Bool) (c : UInt8) : List Bytes :=
  ((keywords c99).map (fun p => p.1)).filter (fun w => w.head? = some c)

theorem kwFrom_spec (c99 : Bool) (c : UInt8) (run : Bytes) (p : Bytes × Nat) (hp : p ∈ keywords c99)
    (h : p.1 = c :: run) : c :: run ∈ kwFrom c99 c := by
  unfold kwFrom
  simp only [List.mem_filter, List.mem_map, List.head?_cons, decide_true, and_true]
  exact ⟨p, hp, h⟩

end Verif.Lex
