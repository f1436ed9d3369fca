import Mathlib.Tactic.CasesM
import Verif.Lex.TokenLemmas
/-! # Keywords and identifiers: case analysis over the keyword tree -/
namespace Verif.Lex
open Spec

theorem if_cases {α : Type} (p : Prop) [Decidable p] (a b c : α) (h1 : p → a = c) (h2 : ¬ p → b = c) :
    (if p then a else b) = c := by
  by_cases h : p
  · rw [if_pos h, h1 h]
  · rw [if_neg h, h2 h]

theorem next_on {run rest : Bytes} (hw : Word (99 :: (run ++ rest)) (99 :: run) rest)
    (h : List.isPrefixOf [111, 110] (run ++ rest) = true) : ∃ r, run = 111 :: 110 :: r := by
  have h' : [111, 110] <+: run ++ rest := by simpa using h
  obtain ⟨r, hr⟩ := prefix_run h' (by decide) hw.stop.1
  exact ⟨r, hr.symm⟩

theorem kwFrom_97 (c99 : Bool) : kwFrom c99 97 = [str% "auto"] := by
  revert c99; decide +kernel
theorem kwFrom_98 (c99 : Bool) : kwFrom c99 98 = [str% "break"] := by
  revert c99; decide +kernel
theorem kwFrom_99 (c99 : Bool) : kwFrom c99 99 = [str% "case", str% "char", str% "const", str% "continue"] := by
  revert c99; decide +kernel
theorem kwFrom_100 (c99 : Bool) : kwFrom c99 100 = [str% "default", str% "do", str% "double"] := by
  revert c99; decide +kernel
theorem kwFrom_101 (c99 : Bool) : kwFrom c99 101 = [str% "else", str% "enum", str% "extern"] := by
  revert c99; decide +kernel
theorem kwFrom_102 (c99 : Bool) : kwFrom c99 102 = [str% "float", str% "for"] := by
  revert c99; decide +kernel
theorem kwFrom_103 (c99 : Bool) : kwFrom c99 103 = [str% "goto"] := by
  revert c99; decide +kernel
theorem kwFrom_105 (c99 : Bool) : kwFrom c99 105 = [str% "if", str% "int"] ++ (if c99 = true then [str% "inline"] else []) := by
  revert c99; decide +kernel
theorem kwFrom_108 (c99 : Bool) : kwFrom c99 108 = [str% "long"] := by
  revert c99; decide +kernel
theorem kwFrom_114 (c99 : Bool) : kwFrom c99 114 = [str% "register", str% "return"] ++ (if c99 = true then [str% "restrict"] else []) := by
  revert c99; decide +kernel
theorem kwFrom_115 (c99 : Bool) : kwFrom c99 115 = [str% "short", str% "signed", str% "sizeof", str% "static", str% "struct", str% "switch"] := by
  revert c99; decide +kernel
theorem kwFrom_116 (c99 : Bool) : kwFrom c99 116 = [str% "typedef"] := by
  revert c99; decide +kernel
theorem kwFrom_117 (c99 : Bool) : kwFrom c99 117 = [str% "union", str% "unsigned"] := by
  revert c99; decide +kernel
theorem kwFrom_118 (c99 : Bool) : kwFrom c99 118 = [str% "void", str% "volatile"] := by
  revert c99; decide +kernel
theorem kwFrom_119 (c99 : Bool) : kwFrom c99 119 = [str% "while"] := by
  revert c99; decide +kernel
theorem kwFrom_95 (c99 : Bool) : kwFrom c99 95 = [str% "_Alignof", str% "_Bool", str% "_Noreturn", str% "_Static_assert", str% "__asm", str% "__asm__", str% "__inline", str% "__inline__", str% "__signed", str% "__signed__", str% "__restrict", str% "__restrict__", str% "__volatile", str% "__volatile__"] := by
  revert c99; decide +kernel

set_option hygiene false in
/-- Close a keyword hit. -/
macro "word_hit" : tactic => `(tactic| (
  rename_i he
  simp only [List.cons_append, List.nil_append, List.cons.injEq, true_and] at he
  subst he
  exact good_hit _ _ (by first | decide +kernel | (revert c99; decide +kernel))))

set_option hygiene false in
/-- Close a leaf where the word is not a keyword. -/
macro "word_leaf" n:ident : tactic => `(tactic| (
  refine good_id hw (fun p hp he => ?_)
  have hm := kwFrom_spec _ _ _ p hp he
  rw [$n:ident] at hm
  simp only [List.mem_cons, List.mem_append, List.not_mem_nil, or_false, List.cons.injEq, true_and] at hm
  clear hw he hp
  try simp_all [at']
  try casesm* _ ∨ _
  all_goals try simp_all [at']))

theorem word_97 (c99 : Bool) (run rest : Bytes) (hw : Word (97 :: (run ++ rest)) (97 :: run) rest) :
    Good c99 (97 :: run) rest (tokenizeInternal c99 (97 :: (run ++ rest))) := by
  rw [tk_97]
  refine Eq.trans (kw_word (run := 97 :: run) (p := [97]) (d := run ++ rest) hw [117, 116, 111] 1 _ rfl (by decide)) ?_
  split
  · word_hit
  word_leaf kwFrom_97

theorem word_98 (c99 : Bool) (run rest : Bytes) (hw : Word (98 :: (run ++ rest)) (98 :: run) rest) :
    Good c99 (98 :: run) rest (tokenizeInternal c99 (98 :: (run ++ rest))) := by
  rw [tk_98]
  refine Eq.trans (kw_word (run := 98 :: run) (p := [98]) (d := run ++ rest) hw [114, 101, 97, 107] 2 _ rfl (by decide)) ?_
  split
  · word_hit
  word_leaf kwFrom_98

theorem word_99 (c99 : Bool) (run rest : Bytes) (hw : Word (99 :: (run ++ rest)) (99 :: run) rest) :
    Good c99 (99 :: run) rest (tokenizeInternal c99 (99 :: (run ++ rest))) := by
  rw [tk_99]
  refine Eq.trans (kw_word (run := 99 :: run) (p := [99]) (d := run ++ rest) hw [97, 115, 101] 3 _ rfl (by decide)) ?_
  split
  · word_hit
  refine Eq.trans (kw_word (run := 99 :: run) (p := [99]) (d := run ++ rest) hw [104, 97, 114] 4 _ rfl (by decide)) ?_
  split
  · word_hit
  refine if_cases _ _ _ _ (fun hc => ?_) (fun hc => ?_)
  · obtain ⟨run', rfl⟩ := next_on hw hc
    refine Eq.trans (kw_word (run := 99 :: 111 :: 110 :: run') (p := [99, 111, 110]) (d := run' ++ rest) hw [115, 116] 5 _ rfl (by decide)) ?_
    split
    · word_hit
    refine Eq.trans (kw_word (run := 99 :: 111 :: 110 :: run') (p := [99, 111, 110]) (d := run' ++ rest) hw [116, 105, 110, 117, 101] 6 _ rfl (by decide)) ?_
    split
    · word_hit
    word_leaf kwFrom_99
  · word_leaf kwFrom_99

theorem word_100 (c99 : Bool) (run rest : Bytes) (hw : Word (100 :: (run ++ rest)) (100 :: run) rest) :
    Good c99 (100 :: run) rest (tokenizeInternal c99 (100 :: (run ++ rest))) := by
  rw [tk_100]
  refine Eq.trans (kw_word (run := 100 :: run) (p := [100]) (d := run ++ rest) hw [101, 102, 97, 117, 108, 116] 7 _ rfl (by decide)) ?_
  split
  · word_hit
  refine if_cases _ _ _ _ (fun hc => ?_) (fun hc => ?_)
  · obtain ⟨run', rfl⟩ := next_char hw.stop.1 hc (by decide)
    refine Eq.trans (kw_word (run := 100 :: 111 :: run') (p := [100, 111]) (d := run' ++ rest) hw [] 8 _ rfl (by decide)) ?_
    split
    · word_hit
    refine Eq.trans (kw_word (run := 100 :: 111 :: run') (p := [100, 111]) (d := run' ++ rest) hw [117, 98, 108, 101] 9 _ rfl (by decide)) ?_
    split
    · word_hit
    word_leaf kwFrom_100
  · skip
    word_leaf kwFrom_100

theorem word_101 (c99 : Bool) (run rest : Bytes) (hw : Word (101 :: (run ++ rest)) (101 :: run) rest) :
    Good c99 (101 :: run) rest (tokenizeInternal c99 (101 :: (run ++ rest))) := by
  rw [tk_101]
  refine Eq.trans (kw_word (run := 101 :: run) (p := [101]) (d := run ++ rest) hw [108, 115, 101] 11 _ rfl (by decide)) ?_
  split
  · word_hit
  refine Eq.trans (kw_word (run := 101 :: run) (p := [101]) (d := run ++ rest) hw [110, 117, 109] 12 _ rfl (by decide)) ?_
  split
  · word_hit
  refine Eq.trans (kw_word (run := 101 :: run) (p := [101]) (d := run ++ rest) hw [120, 116, 101, 114, 110] 13 _ rfl (by decide)) ?_
  split
  · word_hit
  word_leaf kwFrom_101

theorem word_102 (c99 : Bool) (run rest : Bytes) (hw : Word (102 :: (run ++ rest)) (102 :: run) rest) :
    Good c99 (102 :: run) rest (tokenizeInternal c99 (102 :: (run ++ rest))) := by
  rw [tk_102]
  refine Eq.trans (kw_word (run := 102 :: run) (p := [102]) (d := run ++ rest) hw [108, 111, 97, 116] 14 _ rfl (by decide)) ?_
  split
  · word_hit
  refine Eq.trans (kw_word (run := 102 :: run) (p := [102]) (d := run ++ rest) hw [111, 114] 15 _ rfl (by decide)) ?_
  split
  · word_hit
  word_leaf kwFrom_102

theorem word_103 (c99 : Bool) (run rest : Bytes) (hw : Word (103 :: (run ++ rest)) (103 :: run) rest) :
    Good c99 (103 :: run) rest (tokenizeInternal c99 (103 :: (run ++ rest))) := by
  rw [tk_103]
  refine Eq.trans (kw_word (run := 103 :: run) (p := [103]) (d := run ++ rest) hw [111, 116, 111] 16 _ rfl (by decide)) ?_
  split
  · word_hit
  word_leaf kwFrom_103

theorem word_105 (c99 : Bool) (run rest : Bytes) (hw : Word (105 :: (run ++ rest)) (105 :: run) rest) :
    Good c99 (105 :: run) rest (tokenizeInternal c99 (105 :: (run ++ rest))) := by
  rw [tk_105]
  refine Eq.trans (kw_word (run := 105 :: run) (p := [105]) (d := run ++ rest) hw [102] 17 _ rfl (by decide)) ?_
  split
  · word_hit
  refine if_cases _ _ _ _ (fun hc => ?_) (fun hc => ?_)
  · obtain ⟨run', rfl⟩ := next_char hw.stop.1 hc (by decide)
    refine Eq.trans (kw_word (run := 105 :: 110 :: run') (p := [105, 110]) (d := run' ++ rest) hw [116] 18 _ rfl (by decide)) ?_
    split
    · word_hit
    cases c99
    · refine (if_neg (by decide)).trans ?_
      word_leaf kwFrom_105
    · refine (if_pos rfl).trans ?_
      refine Eq.trans (kw_word (run := 105 :: 110 :: run') (p := [105, 110]) (d := run' ++ rest) hw [108, 105, 110, 101] 32 _ rfl (by decide)) ?_
      split
      · word_hit
      word_leaf kwFrom_105
  · skip
    word_leaf kwFrom_105

theorem word_108 (c99 : Bool) (run rest : Bytes) (hw : Word (108 :: (run ++ rest)) (108 :: run) rest) :
    Good c99 (108 :: run) rest (tokenizeInternal c99 (108 :: (run ++ rest))) := by
  rw [tk_108]
  refine Eq.trans (kw_word (run := 108 :: run) (p := [108]) (d := run ++ rest) hw [111, 110, 103] 19 _ rfl (by decide)) ?_
  split
  · word_hit
  word_leaf kwFrom_108

theorem word_114 (c99 : Bool) (run rest : Bytes) (hw : Word (114 :: (run ++ rest)) (114 :: run) rest) :
    Good c99 (114 :: run) rest (tokenizeInternal c99 (114 :: (run ++ rest))) := by
  rw [tk_114]
  refine if_cases _ _ _ _ (fun hc => ?_) (fun hc => ?_)
  · obtain ⟨run', rfl⟩ := next_char hw.stop.1 hc (by decide)
    refine Eq.trans (kw_word (run := 114 :: 101 :: run') (p := [114, 101]) (d := run' ++ rest) hw [103, 105, 115, 116, 101, 114] 20 _ rfl (by decide)) ?_
    split
    · word_hit
    refine Eq.trans (kw_word (run := 114 :: 101 :: run') (p := [114, 101]) (d := run' ++ rest) hw [116, 117, 114, 110] 21 _ rfl (by decide)) ?_
    split
    · word_hit
    cases c99
    · refine (if_neg (by decide)).trans ?_
      word_leaf kwFrom_114
    · refine (if_pos rfl).trans ?_
      refine Eq.trans (kw_word (run := 114 :: 101 :: run') (p := [114, 101]) (d := run' ++ rest) hw [115, 116, 114, 105, 99, 116] 48 _ rfl (by decide)) ?_
      split
      · word_hit
      word_leaf kwFrom_114
  · skip
    word_leaf kwFrom_114

theorem word_115 (c99 : Bool) (run rest : Bytes) (hw : Word (115 :: (run ++ rest)) (115 :: run) rest) :
    Good c99 (115 :: run) rest (tokenizeInternal c99 (115 :: (run ++ rest))) := by
  rw [tk_115]
  refine Eq.trans (kw_word (run := 115 :: run) (p := [115]) (d := run ++ rest) hw [104, 111, 114, 116] 22 _ rfl (by decide)) ?_
  split
  · word_hit
  refine Eq.trans (kw_word (run := 115 :: run) (p := [115]) (d := run ++ rest) hw [119, 105, 116, 99, 104] 27 _ rfl (by decide)) ?_
  split
  · word_hit
  refine if_cases _ _ _ _ (fun hc => ?_) (fun hc => ?_)
  · obtain ⟨run', rfl⟩ := next_char hw.stop.1 hc (by decide)
    refine Eq.trans (kw_word (run := 115 :: 105 :: run') (p := [115, 105]) (d := run' ++ rest) hw [103, 110, 101, 100] 23 _ rfl (by decide)) ?_
    split
    · word_hit
    refine Eq.trans (kw_word (run := 115 :: 105 :: run') (p := [115, 105]) (d := run' ++ rest) hw [122, 101, 111, 102] 24 _ rfl (by decide)) ?_
    split
    · word_hit
    word_leaf kwFrom_115
  · skip
    refine if_cases _ _ _ _ (fun hc => ?_) (fun hc => ?_)
    · obtain ⟨run', rfl⟩ := next_char hw.stop.1 hc (by decide)
      refine Eq.trans (kw_word (run := 115 :: 116 :: run') (p := [115, 116]) (d := run' ++ rest) hw [97, 116, 105, 99] 25 _ rfl (by decide)) ?_
      split
      · word_hit
      refine Eq.trans (kw_word (run := 115 :: 116 :: run') (p := [115, 116]) (d := run' ++ rest) hw [114, 117, 99, 116] 26 _ rfl (by decide)) ?_
      split
      · word_hit
      word_leaf kwFrom_115
    · skip
      word_leaf kwFrom_115

theorem word_116 (c99 : Bool) (run rest : Bytes) (hw : Word (116 :: (run ++ rest)) (116 :: run) rest) :
    Good c99 (116 :: run) rest (tokenizeInternal c99 (116 :: (run ++ rest))) := by
  rw [tk_116]
  refine Eq.trans (kw_word (run := 116 :: run) (p := [116]) (d := run ++ rest) hw [121, 112, 101, 100, 101, 102] 28 _ rfl (by decide)) ?_
  split
  · word_hit
  word_leaf kwFrom_116

theorem word_117 (c99 : Bool) (run rest : Bytes) (hw : Word (117 :: (run ++ rest)) (117 :: run) rest) :
    Good c99 (117 :: run) rest (tokenizeInternal c99 (117 :: (run ++ rest))) := by
  rw [tk_117]
  refine if_cases _ _ _ _ (fun hc => ?_) (fun hc => ?_)
  · obtain ⟨run', rfl⟩ := next_char hw.stop.1 hc (by decide)
    refine Eq.trans (kw_word (run := 117 :: 110 :: run') (p := [117, 110]) (d := run' ++ rest) hw [105, 111, 110] 29 _ rfl (by decide)) ?_
    split
    · word_hit
    refine Eq.trans (kw_word (run := 117 :: 110 :: run') (p := [117, 110]) (d := run' ++ rest) hw [115, 105, 103, 110, 101, 100] 30 _ rfl (by decide)) ?_
    split
    · word_hit
    word_leaf kwFrom_117
  · skip
    word_leaf kwFrom_117

theorem word_118 (c99 : Bool) (run rest : Bytes) (hw : Word (118 :: (run ++ rest)) (118 :: run) rest) :
    Good c99 (118 :: run) rest (tokenizeInternal c99 (118 :: (run ++ rest))) := by
  rw [tk_118]
  refine if_cases _ _ _ _ (fun hc => ?_) (fun hc => ?_)
  · obtain ⟨run', rfl⟩ := next_char hw.stop.1 hc (by decide)
    refine Eq.trans (kw_word (run := 118 :: 111 :: run') (p := [118, 111]) (d := run' ++ rest) hw [105, 100] 31 _ rfl (by decide)) ?_
    split
    · word_hit
    refine Eq.trans (kw_word (run := 118 :: 111 :: run') (p := [118, 111]) (d := run' ++ rest) hw [108, 97, 116, 105, 108, 101] 34 _ rfl (by decide)) ?_
    split
    · word_hit
    word_leaf kwFrom_118
  · skip
    word_leaf kwFrom_118

theorem word_119 (c99 : Bool) (run rest : Bytes) (hw : Word (119 :: (run ++ rest)) (119 :: run) rest) :
    Good c99 (119 :: run) rest (tokenizeInternal c99 (119 :: (run ++ rest))) := by
  rw [tk_119]
  refine Eq.trans (kw_word (run := 119 :: run) (p := [119]) (d := run ++ rest) hw [104, 105, 108, 101] 39 _ rfl (by decide)) ?_
  split
  · word_hit
  word_leaf kwFrom_119

theorem word_95 (c99 : Bool) (run rest : Bytes) (hw : Word (95 :: (run ++ rest)) (95 :: run) rest) :
    Good c99 (95 :: run) rest (tokenizeInternal c99 (95 :: (run ++ rest))) := by
  rw [tk_95]
  refine if_cases _ _ _ _ (fun hc => ?_) (fun hc => ?_)
  · obtain ⟨run', rfl⟩ := next_char hw.stop.1 hc (by decide)
    refine if_cases _ _ _ _ (fun hc => ?_) (fun hc => ?_)
    · obtain ⟨run'', rfl⟩ := next_char hw.stop.1 hc (by decide)
      refine Eq.trans (kw2_word (run := 95 :: 95 :: 97 :: run'') (p := [95, 95, 97]) (d := run'' ++ rest) hw [115, 109] 104 _ rfl (by decide)) ?_
      split
      · word_hit
      split
      · word_hit
      word_leaf kwFrom_95
    · skip
      refine if_cases _ _ _ _ (fun hc => ?_) (fun hc => ?_)
      · obtain ⟨run'', rfl⟩ := next_char hw.stop.1 hc (by decide)
        refine Eq.trans (kw2_word (run := 95 :: 95 :: 105 :: run'') (p := [95, 95, 105]) (d := run'' ++ rest) hw [110, 108, 105, 110, 101] 106 _ rfl (by decide)) ?_
        split
        · word_hit
        split
        · word_hit
        word_leaf kwFrom_95
      · skip
        refine if_cases _ _ _ _ (fun hc => ?_) (fun hc => ?_)
        · obtain ⟨run'', rfl⟩ := next_char hw.stop.1 hc (by decide)
          refine Eq.trans (kw2_word (run := 95 :: 95 :: 115 :: run'') (p := [95, 95, 115]) (d := run'' ++ rest) hw [105, 103, 110, 101, 100] 108 _ rfl (by decide)) ?_
          split
          · word_hit
          split
          · word_hit
          word_leaf kwFrom_95
        · skip
          refine if_cases _ _ _ _ (fun hc => ?_) (fun hc => ?_)
          · obtain ⟨run'', rfl⟩ := next_char hw.stop.1 hc (by decide)
            refine Eq.trans (kw2_word (run := 95 :: 95 :: 114 :: run'') (p := [95, 95, 114]) (d := run'' ++ rest) hw [101, 115, 116, 114, 105, 99, 116] 110 _ rfl (by decide)) ?_
            split
            · word_hit
            split
            · word_hit
            word_leaf kwFrom_95
          · skip
            refine if_cases _ _ _ _ (fun hc => ?_) (fun hc => ?_)
            · obtain ⟨run'', rfl⟩ := next_char hw.stop.1 hc (by decide)
              refine Eq.trans (kw2_word (run := 95 :: 95 :: 118 :: run'') (p := [95, 95, 118]) (d := run'' ++ rest) hw [111, 108, 97, 116, 105, 108, 101] 112 _ rfl (by decide)) ?_
              split
              · word_hit
              split
              · word_hit
              word_leaf kwFrom_95
            · skip
              word_leaf kwFrom_95
  · skip
    refine if_cases _ _ _ _ (fun hc => ?_) (fun hc => ?_)
    · obtain ⟨run', rfl⟩ := next_char hw.stop.1 hc (by decide)
      refine Eq.trans (kw_word (run := 95 :: 65 :: run') (p := [95, 65]) (d := run' ++ rest) hw [108, 105, 103, 110, 111, 102] 49 _ rfl (by decide)) ?_
      split
      · word_hit
      word_leaf kwFrom_95
    · skip
      refine if_cases _ _ _ _ (fun hc => ?_) (fun hc => ?_)
      · obtain ⟨run', rfl⟩ := next_char hw.stop.1 hc (by decide)
        refine Eq.trans (kw_word (run := 95 :: 66 :: run') (p := [95, 66]) (d := run' ++ rest) hw [111, 111, 108] 50 _ rfl (by decide)) ?_
        split
        · word_hit
        word_leaf kwFrom_95
      · skip
        refine if_cases _ _ _ _ (fun hc => ?_) (fun hc => ?_)
        · obtain ⟨run', rfl⟩ := next_char hw.stop.1 hc (by decide)
          refine Eq.trans (kw_word (run := 95 :: 78 :: run') (p := [95, 78]) (d := run' ++ rest) hw [111, 114, 101, 116, 117, 114, 110] 51 _ rfl (by decide)) ?_
          split
          · word_hit
          word_leaf kwFrom_95
        · skip
          refine if_cases _ _ _ _ (fun hc => ?_) (fun hc => ?_)
          · obtain ⟨run', rfl⟩ := next_char hw.stop.1 hc (by decide)
            refine Eq.trans (kw_word (run := 95 :: 83 :: run') (p := [95, 83]) (d := run' ++ rest) hw [116, 97, 116, 105, 99, 95, 97, 115, 115, 101, 114, 116] 56 _ rfl (by decide)) ?_
            split
            · word_hit
            word_leaf kwFrom_95
          · skip
            word_leaf kwFrom_95

end Verif.Lex
