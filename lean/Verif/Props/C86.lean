import Verif.Conv.X87Lemmas

/-!
# C86: conversions at run time, and C56: the stack pointer

C86: a conversion between arithmetic types that is done when the program runs gives the value
C prescribes (C99 6.3.1): between integer types modulo `2 ^ n`, to a floating type the nearest
number, from a floating type to an integer type the truncated number.

Partial: the theorems are about operands in memory, in registers for temporaries, or
bit-fields; each says what it leaves out, and the code is wrong for that, as the theorems
with `_violated` show.  Not modelled: infinities and NaN, and the bounds of the exponent (a
`double` to a `float` beyond its range).

C56: every sequence leaves `%rsp` where it was.
-/

namespace Verif.Conv

open Verif.Abi

/-- A machine with some bytes at address 4096, where the stack pointer is `2 ^ 20` and a pointer
to address 4096 is in `%rbx`. -/
def sample (bs : List UInt8) : CM where
  m := { reg := fun r => if r = SP then 2 ^ 20 else if r = BX then 4096 else 0, mem := wr (fun _ => 0) 4096 bs }
  xmm := fun _ => none
  st := []
  cw := 0x37f
  sf := false
  cf := false
  skip := none

/-- Integer to integer: the low bytes of `%rax` are the value modulo `2 ^ n`.  Also for
bit-fields, and from any size to any size. -/
theorem C86_integer_partial {v : Val} {s : CM} {wd : Nat} {sg : Bool} (enc) (limit two64 : Int) (hg : v.Good s.m)
    (hk : s.skip = none) (hw : IsSize wd) :
    ∃ code, loadCast limit two64 (.int v) (.int wd sg) = some code ∧ Kept s (run enc s code) [AX, CX, R11] ∧
      (run enc s code).m.reg AX % 256 ^ wd = v.value s.m % 256 ^ wd :=
  int_int enc limit two64 hg hk hw

/-- A signed 5 bit field with the value -1 in a 4 byte object, through a pointer. -/
example : (Val.mk 4 true (some (3, 5)) (.deref (.temp BX) 0)).Good (sample [0xf8]).m ∧
    (Val.mk 4 true (some (3, 5)) (.deref (.temp BX) 0)).value (sample [0xf8]).m = -1 := by
  refine ⟨⟨by unfold IsSize; decide, by simp, by simp, by simp, ?_, ?_⟩, by decide +kernel⟩
  · intro r o h
    simp only [Src.deref.injEq, Place.temp.injEq] at h
    obtain ⟨rfl, _⟩ := h
    decide
  · intro off width h
    simp only [Option.some.injEq, Prod.mk.injEq] at h
    obtain ⟨rfl, rfl⟩ := h
    decide

/-- Integer to `float` or `double`: the nearest number; all 64 bits of an `unsigned long` count.
Missing: a signed bit-field of more than 32 bits. -/
theorem C86_integer_to_real_partial {v : Val} {s : CM} {w : Nat} (enc) (limit two64 : Int) (hg : v.Good s.m)
    (hk : s.skip = none) (hw : IsReal w)
    (hf : ∀ off width, v.field = some (off, width) → v.signed = true → width ≤ 32) :
    ∃ code, loadCast limit two64 (.int v) (.real w) = some code ∧ Kept s (run enc s code) [AX, CX, R11] ∧
      (run enc s code).xmm (XMM 0) = some (rnd (prec w) (v.value s.m)) :=
  int_real enc limit two64 hg hk hw hf

/-- An `unsigned long` of more than 63 bits. -/
example : (Val.mk 8 false none (.place (.global 4096))).Good (sample [1, 4, 0, 0, 0, 0, 0, 128]).m ∧
    (Val.mk 8 false none (.place (.global 4096))).value (sample [1, 4, 0, 0, 0, 0, 0, 128]).m = 2 ^ 63 + 1025 := by
  refine ⟨⟨by unfold IsSize; decide, by simp, by simp, by simp, by simp, by simp⟩, by decide +kernel⟩

/-- What `rnd` is: of all numbers that can be written with `p` bits none is nearer, and it is one
of them. -/
theorem C86_nearest {p : Nat} (hp : 0 < p) (x : ℚ) :
    Rep p (rnd p x) ∧ ∀ y, Rep p y → |rnd p x - x| ≤ |y - x| :=
  ⟨rep_rnd hp x, fun _ hy => rnd_near hp x hy⟩

example : Rep 24 ((1 : ℚ) / 2) ∧ 0 < 24 := ⟨⟨1, -1, by norm_num, by norm_num⟩, by norm_num⟩

/-- Between `float` and `double`. -/
theorem C86_real_partial {s : CM} {sz w : Nat} {src : Src} {x : ℚ} (enc) (limit two64 : Int) (hg : RealGood s sz src)
    (hk : s.skip = none) (hz : IsReal sz) (hx : realOf s sz src = some x) :
    ∃ code, loadCast limit two64 (.real sz src) (.real w) = some code ∧ Kept s (run enc s code) [AX, CX, R11] ∧
      (run enc s code).xmm (XMM 0) = some (rnd (prec w) x) ∧ (sz = 4 → w = 8 → (run enc s code).xmm (XMM 0) = some x) := by
  obtain ⟨code, h1, h2, h3⟩ := real_real (w := w) enc limit two64 hg hk hx
  have hrep := realOf_rep hg hx
  have e : (if sz = w then x else rnd (prec w) x) = rnd (prec w) x := by
    split_ifs with h
    · subst h; exact (rnd_rep hrep).symm
    · rfl
  rw [e] at h3
  refine ⟨code, h1, h2, h3, ?_⟩
  rintro rfl rfl
  rw [h3, rnd_rep (Rep.mono (by decide) hrep)]

/-- `float` and `double` to an integer type: the truncated number, if the type has it.  Also for
`unsigned long` beyond `2 ^ 63`.  Missing: `_Bool`. -/
theorem C86_real_to_integer_partial {s : CM} {sz wd : Nat} {sg : Bool} {src : Src} {x : ℚ} (enc) (limit two64 : Int)
    (hg : RealGood s sz src) (hz : IsReal sz) (hk : s.skip = none) (hx : realOf s sz src = some x) (hw : IsSize wd)
    (hf : Fits wd sg (trunc x)) (hl : Const s sz limit (2 ^ 63)) :
    ∃ code, loadCast limit two64 (.real sz src) (.int wd sg) = some code ∧ Kept s (run enc s code) [AX, CX, R11] ∧
      (run enc s code).m.reg AX % 256 ^ wd = trunc x % 256 ^ wd :=
  real_int enc limit two64 hg hz hk hx hw hf hl

/-- 1.5 as a `float`, followed by `2 ^ 63` as a `float`. -/
theorem sample_real : RealGood (sample [0, 0, 0xc0, 0x3f, 0, 0, 0, 0x5f]) 4 (.place (.global 4096)) ∧
    realOf (sample [0, 0, 0xc0, 0x3f, 0, 0, 0, 0x5f]) 4 (.place (.global 4096)) = some (3 / 2) ∧
    Const (sample [0, 0, 0xc0, 0x3f, 0, 0, 0, 0x5f]) 4 4100 (2 ^ 63) := by
  refine ⟨⟨by simp, by simp, by simp, by simp⟩, ?_, ?_, by decide⟩
  · have e : bytes (sample [0, 0, 0xc0, 0x3f, 0, 0, 0, 0x5f]).m (.place (.global 4096)) 4 = [0, 0, 0xc0, 0x3f] := by decide +kernel
    simp only [realOf]
    rw [e]
    have n : (Abi.val [0, 0, 0xc0, 0x3f]).toNat = 0x3fc00000 := by decide +kernel
    unfold num
    simp only [n, List.length_cons, List.length_nil]
    norm_num [ieee]
  · have e : rd (sample [0, 0, 0xc0, 0x3f, 0, 0, 0, 0x5f]).m.mem 4100 4 = [0, 0, 0, 0x5f] := by decide +kernel
    rw [e]
    have n : (Abi.val [0, 0, 0, 0x5f]).toNat = 0x5f000000 := by decide +kernel
    unfold num
    simp only [n, List.length_cons, List.length_nil]
    norm_num [ieee]

example : Fits 8 false (trunc (3 / 2)) := by
  have : trunc (3 / 2) = 1 := by unfold trunc; rw [if_pos (by norm_num)]; norm_num [Int.floor_eq_iff]
  rw [this]; unfold Fits; decide

/-- Integer to `long double`: the value itself.  Missing: a signed operand of more than one byte
in a register, or through a pointer and of 2 or 4 bytes (then the value is right but not the
stack pointer), and a signed bit-field which is not accessed through a pointer. -/
theorem C86_integer_to_ldouble_partial {v : Val} {s : CM} (enc) (limit two64 : Int) (hg : v.Good s.m) (hk : s.skip = none)
    (hc : Const s 10 two64 (2 ^ 64))
    (h : v.signed = false ∨ v.sz = 1 ∨ (v.field = none ∧ ∃ p, v.src = .place p ∧ ∀ r, p ≠ .temp r) ∨
      (v.sz = 8 ∧ ∃ p o, v.src = .deref p o)) :
    ∃ code, loadCast limit two64 (.int v) .ldouble = some code ∧ Kept s (run enc s code) used ∧
      (run enc s code).st = some (v.value s.m : ℚ) :: s.st := by
  by_cases hu : v.signed = false ∨ v.sz = 1
  · obtain ⟨code, h1, h2⟩ := unsigned_ldouble enc hg hk hu hc
    exact ⟨code, h1, h2.kept, h2.st⟩
  · have hs : v.signed = true := by
      cases hv : v.signed with
      | true => rfl
      | false => exact (hu (.inl hv)).elim
    have h1 : v.sz ≠ 1 := fun h => hu (.inr h)
    rcases h with h | h | ⟨hf, p, hp, ht⟩ | ⟨h8, p, o, hp⟩
    · exact (hu (.inl h)).elim
    · exact (hu (.inr h)).elim
    · obtain ⟨code, h1, h2⟩ := direct_ldouble (two64 := two64) enc hg hk hs h1 hf hp ht
      exact ⟨code, h1, h2.kept, h2.st⟩
    · obtain ⟨code, h1, _, _, h2⟩ := deref_ldouble (two64 := two64) enc hg hk hs h1 hp
      exact ⟨code, h1, (h2 h8).kept, (h2 h8).st⟩

/-- `2 ^ 64` as a `long double`. -/
theorem sample_const : Const (sample [0, 0, 0, 0, 0, 0, 0, 0x80, 0x3f, 0x40]) 10 4096 (2 ^ 64) := by
  refine ⟨?_, by decide⟩
  have e : rd (sample [0, 0, 0, 0, 0, 0, 0, 0x80, 0x3f, 0x40]).m.mem 4096 10 = [0, 0, 0, 0, 0, 0, 0, 0x80, 0x3f, 0x40] := by
    decide +kernel
  rw [e]
  have n : (Abi.val [0, 0, 0, 0, 0, 0, 0, 0x80, 0x3f, 0x40]).toNat = 0x403f8000000000000000 := by decide +kernel
  unfold num
  simp only [n, List.length_cons, List.length_nil]
  norm_num [x87]

/-- `float`, `double` and `long double`, from memory, to `long double`: the same number. -/
theorem C86_real_to_ldouble_partial {s : CM} {sz : Nat} {src : Src} (enc) (limit two64 : Int) (hs : Stored s sz src)
    (hk : s.skip = none) (hz : IsReal sz) :
    ∃ code, loadCast limit two64 (.real sz src) .ldouble = some code ∧ Kept s (run enc s code) used ∧
      (run enc s code).st = realOf s sz src :: s.st := by
  obtain ⟨code, h1, h2⟩ := real_loaded enc hs hk (by unfold IsReal at hz; omega)
  refine ⟨code, h1, h2.kept, ?_⟩
  rw [h2.st, if_neg (by unfold IsReal at hz; omega)]
  congr 1
  cases hsrc : src with
  | place p =>
    cases p with
    | temp r => exact (hs.place r hsrc).elim
    | _ => rfl
  | _ => rfl

theorem C86_ldouble_partial {s : CM} {src : Src} (enc) (limit two64 : Int) (hs : Stored s 16 src) (hk : s.skip = none) :
    ∃ code, loadCast limit two64 (.ldouble src) .ldouble = some code ∧ Kept s (run enc s code) used ∧
      (run enc s code).st = num (bytes s.m src 10) :: s.st := by
  obtain ⟨code, h1, h2⟩ := real_loaded enc hs hk (.inr (.inr rfl))
  exact ⟨code, h1, h2.kept, by rw [h2.st]; rfl⟩

example : Stored (sample [1, 2, 3]) 16 (.deref (.temp BX) 0) := by
  refine ⟨by simp, by simp, by simp, ?_, by decide⟩
  intro r o h
  simp only [Src.deref.injEq, Place.temp.injEq] at h
  obtain ⟨rfl, _⟩ := h
  decide

/-- `long double` to `float` or `double`: the nearest number, if the type has it. -/
theorem C86_ldouble_to_real_partial {s : CM} {w : Nat} {src : Src} {x : ℚ} {enc} (henc : Encodes enc) (limit two64 : Int)
    (hs : Stored s 16 src) (hk : s.skip = none) (hw : IsReal w) (hx : num (bytes s.m src 10) = some x)
    (hr : ∃ bs, bs.length = w ∧ num bs = some (rnd (prec w) x)) :
    ∃ code, loadCast limit two64 (.ldouble src) (.real w) = some code ∧ Kept s (run enc s code) used ∧
      (run enc s code).st = s.st ∧ (run enc s code).xmm (XMM 0) = some (rnd (prec w) x) :=
  ldouble_real henc limit two64 hs hk hw hx hr

/-- There is a way to write numbers as it is asked of `fstp`. -/
example : ∃ enc, Encodes enc := by
  classical
  refine ⟨fun w x => if h : ∃ y bs, x = some y ∧ bs.length = w ∧ num bs = some (rnd (prec w) y) then h.choose_spec.choose
    else List.replicate w 0, ⟨fun w x => ?_, fun w x bs hl hn => ?_⟩⟩
  · split_ifs with h
    · exact h.choose_spec.choose_spec.2.1
    · simp
  · have h : ∃ y bs, some x = some y ∧ bs.length = w ∧ num bs = some (rnd (prec w) y) := ⟨x, bs, rfl, hl, hn⟩
    rw [dif_pos h]
    have h2 := h.choose_spec.choose_spec
    have : h.choose = x := (Option.some.inj h2.1).symm
    rw [h2.2.2, this]

/-- `long double` to an integer type: the truncated number, if the type has it, and the control
word is as before.  Missing: the upper half of the range of `unsigned short` and `unsigned
long`. -/
theorem C86_ldouble_to_integer_partial {s : CM} {wd : Nat} {sg : Bool} {src : Src} {x : ℚ} (enc) (limit two64 : Int)
    (hs : Stored s 16 src) (hk : s.skip = none) (hcw : 0 ≤ s.cw ∧ s.cw < 65536) (hw : IsSize wd)
    (hx : num (bytes s.m src 10) = some x) (hf : Fits wd sg (trunc x))
    (hb : sg = false → wd = 2 ∨ wd = 8 → trunc x < 2 ^ (8 * wd - 1)) :
    ∃ code, loadCast limit two64 (.ldouble src) (.int wd sg) = some code ∧ Kept s (run enc s code) used ∧
      (run enc s code).st = s.st ∧ (run enc s code).m.reg AX % 256 ^ wd = trunc x % 256 ^ wd :=
  ldouble_int enc limit two64 hs hk hcw hw hx hf hb

/-- A `long double` stored: ten bytes with the number, six more change, and nothing else. -/
theorem C86_store_ldouble {s : CM} {src : Src} {x : Option ℚ} {rest : List (Option ℚ)} {enc} (henc : Encodes enc)
    (hs : Stored s 16 src) (hk : s.skip = none) (hst : s.st = x :: rest) :
    ∃ code, storeX87 src = some code ∧ (run enc s code).skip = none ∧ (run enc s code).st = rest ∧
      (∀ r, r ∉ used → (run enc s code).m.reg r = s.m.reg r) ∧ rd (run enc s code).m.mem (src.object s.m) 10 = enc 10 x ∧
      (∀ y, y < s.m.reg SP - 16 ∨ s.m.reg SP ≤ y → y < src.object s.m ∨ src.object s.m + 16 ≤ y →
        (run enc s code).m.mem y = s.m.mem y) :=
  store_ldouble henc hs hk hst

/-! ### Where the code is wrong -/

theorem sample_good {sz : Nat} {sg : Bool} (bs) (h : IsSize sz) : (Val.mk sz sg none (.place (.global 4096))).Good (sample bs).m :=
  ⟨h, by simp, by simp, by simp, by simp, by simp⟩

/-- `(_Bool) x` where `x` is the `unsigned` 256: C99 6.3.1.2 asks for 1, the result is 0.  `_Bool`
is an unsigned type of one byte here as any other, there is no comparison with 0 (`eval_cast`,
src/parser/eval.c:441-480). -/
theorem C86_bool_violated (enc) :
    (Val.mk 4 false none (.place (.global 4096))).value (sample [0, 1]).m = 256 ∧
    ∃ code, loadCast 0 0 (.int ⟨4, false, none, .place (.global 4096)⟩) (.int 1 false) = some code ∧
      (run enc (sample [0, 1]) code).m.reg AX % 256 = 0 := by
  have hv : (Val.mk 4 false none (.place (.global 4096))).value (sample [0, 1]).m = 256 := by decide +kernel
  refine ⟨hv, ?_⟩
  obtain ⟨code, h1, _, h3⟩ := int_int (wd := 1) (sg := false) enc 0 0 (sample_good (sg := false) [0, 1] (by unfold IsSize; decide : IsSize 4)) rfl
    (by unfold IsSize; decide)
  rw [hv] at h3
  exact ⟨code, h1, by simpa using h3⟩

/-- `(_Bool) 0.5f`, of a variable: 0 and not 1. -/
theorem C86_bool_real_violated (enc) :
    realOf (sample [0, 0, 0, 0x3f]) 4 (.place (.global 4096)) = some (1 / 2) ∧
    ∃ code, loadCast 0 0 (.real 4 (.place (.global 4096))) (.int 1 false) = some code ∧
      (run enc (sample [0, 0, 0, 0x3f]) code).m.reg AX % 256 = 0 := by
  have hv : realOf (sample [0, 0, 0, 0x3f]) 4 (.place (.global 4096)) = some (1 / 2) := by
    have e : bytes (sample [0, 0, 0, 0x3f]).m (.place (.global 4096)) 4 = [0, 0, 0, 0x3f] := by decide +kernel
    simp only [realOf]
    rw [e]
    have n : (Abi.val [0, 0, 0, 0x3f]).toNat = 0x3f000000 := by decide +kernel
    unfold num
    simp only [n, List.length_cons, List.length_nil]
    norm_num [ieee]
  have ht : trunc (1 / 2) = 0 := by
    unfold trunc; rw [if_pos (by norm_num)]; norm_num [Int.floor_eq_iff]
  refine ⟨hv, [.cvtts2si 4 4 AX (.mem (.abs 4096))], rfl, ?_⟩
  obtain ⟨_, h3⟩ := truncate (wd := 1) (W := 4) enc (⟨by simp, by simp, by simp, by simp⟩ : RealGood (sample [0, 0, 0, 0x3f]) 4 (.place (.global 4096)))
    rfl hv (by omega) (by omega) (by rw [ht]; decide) (code := [.cvtts2si 4 4 AX (.mem (.abs 4096))]) rfl
  rw [ht] at h3
  simpa using h3

/-- `struct { long a : 40; } s;` with `s.a` equal to `2 ^ 32`: `(double) s.a` is 0. -/
theorem C86_wide_field_violated (enc) :
    (Val.mk 8 true (some (0, 40)) (.place (.global 4096))).value (sample [0, 0, 0, 0, 1]).m = 2 ^ 32 ∧
    ∃ code, loadCast 0 0 (.int ⟨8, true, some (0, 40), .place (.global 4096)⟩) (.real 8) = some code ∧
      (run enc (sample [0, 0, 0, 0, 1]) code).xmm (XMM 0) = some 0 := by
  have hv : (Val.mk 8 true (some (0, 40)) (.place (.global 4096))).value (sample [0, 0, 0, 0, 1]).m = 2 ^ 32 := by decide +kernel
  refine ⟨hv, ?_⟩
  have hg : (Val.mk 8 true (some (0, 40)) (.place (.global 4096))).Good (sample [0, 0, 0, 0, 1]).m := by
    refine ⟨by unfold IsSize; decide, by simp, by simp, by simp, by simp, ?_⟩
    intro off width h
    simp only [Option.some.injEq, Prod.mk.injEq] at h
    obtain ⟨rfl, rfl⟩ := h
    decide
  obtain ⟨l, hl⟩ := loadInt_some hg (.inl rfl : 4 = 4 ∨ 4 = 8)
  have h := loadInt_holds (enc := enc) (s := sample [0, 0, 0, 0, 1]) hg rfl (.inl rfl) hl
  refine ⟨_, by simp only [loadCast, loadIntegerAsFloat, hl]; rfl, ?_⟩
  rw [run_append, run_cons, run_nil, step_on (by rw [h.skip]; rfl)]
  rw [hv] at h
  have hl0 : low 4 ((run enc (sample [0, 0, 0, 0, 1]) l).m.reg AX) = 0 := low_eq (by omega) (h.low.trans (by decide)) (by decide)
  simp only [exec, CM.setNum, CM.intOpd, if_true, hl0]
  rw [Int.cast_zero, rnd_zero]

/-- There is no code for a signed operand in a register: the compiler stops at an assertion, as
for `long double f(int a, int b) { return a + b; }`. -/
theorem C86_ldouble_register_violated (limit two64 : Int) (r sz : Nat) (h : sz ≠ 1) :
    loadCast limit two64 (.int ⟨sz, true, none, .place (.temp r)⟩) .ldouble = none := by
  simp [loadCast, loadX87Int, h, Place.ea]

/-- `struct { int a : 4, b : 4; } s;` with `s.a` equal to 0 and `s.b` equal to 1: `(long double)
s.a` is 16. -/
theorem C86_ldouble_field_violated (enc) :
    (Val.mk 4 true (some (0, 4)) (.place (.global 4096))).value (sample [16]).m = 0 ∧
    ∃ code, loadCast 0 0 (.int ⟨4, true, some (0, 4), .place (.global 4096)⟩) .ldouble = some code ∧
      (run enc (sample [16]) code).st = [some 16] := by
  refine ⟨by decide +kernel, [.fild 4 (.abs 4096)], rfl, ?_⟩
  rw [run_cons, run_nil, step_on rfl]
  have e : sval (rd (sample [16]).m.mem 4096 4) = 16 := by decide +kernel
  show [some ((sval (rd (sample [16]).m.mem 4096 4) : Int) : ℚ)] = [some 16]
  rw [e]; norm_num

theorem sample_stored (bs) : Stored (sample bs) 16 (.place (.global 4096)) := by
  refine ⟨by simp, by simp, by simp, by simp, ?_⟩
  show (4096 : Int) + ((16 : Nat) : Int) ≤ 2 ^ 20 - 16 ∨ (2 : Int) ^ 20 ≤ 4096
  decide

/-- `(unsigned short) x` where `x` is the `long double` 40000: 32768. -/
theorem C86_ldouble_ushort_violated (enc) :
    num (bytes (sample [0, 0, 0, 0, 0, 0, 0x40, 0x9c, 0x0e, 0x40]).m (.place (.global 4096)) 10) = some 40000 ∧
    ∃ code, loadCast 0 0 (.ldouble (.place (.global 4096))) (.int 2 false) = some code ∧
      (run enc (sample [0, 0, 0, 0, 0, 0, 0x40, 0x9c, 0x0e, 0x40]) code).m.reg AX % 256 ^ 2 = 32768 := by
  have hv : num (bytes (sample [0, 0, 0, 0, 0, 0, 0x40, 0x9c, 0x0e, 0x40]).m (.place (.global 4096)) 10) = some 40000 := by
    have e : bytes (sample [0, 0, 0, 0, 0, 0, 0x40, 0x9c, 0x0e, 0x40]).m (.place (.global 4096)) 10
        = [0, 0, 0, 0, 0, 0, 0x40, 0x9c, 0x0e, 0x40] := by decide +kernel
    rw [e]
    have n : (Abi.val [0, 0, 0, 0, 0, 0, 0x40, 0x9c, 0x0e, 0x40]).toNat = 0x400e9c40000000000000 := by decide +kernel
    unfold num
    simp only [n, List.length_cons, List.length_nil]
    norm_num [x87]
  refine ⟨hv, ?_⟩
  obtain ⟨code, h1, _, _, h4⟩ := ldouble_raw (wd := 2) (sg := false) enc 0 0 (sample_stored _) rfl (by decide) (by unfold IsSize; decide) hv
  refine ⟨code, h1, h4.trans ?_⟩
  have ht : trunc 40000 = 40000 := by
    unfold trunc; rw [if_pos (by norm_num)]; norm_num [Int.floor_eq_iff]
  rw [ht]; decide

/-- `(unsigned long) x` where `x` is the `long double` `2 ^ 63 + 1`: `2 ^ 63`. -/
theorem C86_ldouble_ulong_violated (enc) :
    num (bytes (sample [1, 0, 0, 0, 0, 0, 0, 0x80, 0x3e, 0x40]).m (.place (.global 4096)) 10) = some (2 ^ 63 + 1) ∧
    ∃ code, loadCast 0 0 (.ldouble (.place (.global 4096))) (.int 8 false) = some code ∧
      (run enc (sample [1, 0, 0, 0, 0, 0, 0, 0x80, 0x3e, 0x40]) code).m.reg AX % 256 ^ 8 = 2 ^ 63 := by
  have hv : num (bytes (sample [1, 0, 0, 0, 0, 0, 0, 0x80, 0x3e, 0x40]).m (.place (.global 4096)) 10) = some (2 ^ 63 + 1) := by
    have e : bytes (sample [1, 0, 0, 0, 0, 0, 0, 0x80, 0x3e, 0x40]).m (.place (.global 4096)) 10
        = [1, 0, 0, 0, 0, 0, 0, 0x80, 0x3e, 0x40] := by decide +kernel
    rw [e]
    have n : (Abi.val [1, 0, 0, 0, 0, 0, 0, 0x80, 0x3e, 0x40]).toNat = 0x403e8000000000000001 := by decide +kernel
    unfold num
    simp only [n, List.length_cons, List.length_nil]
    norm_num [x87]
  refine ⟨hv, ?_⟩
  obtain ⟨code, h1, _, _, h4⟩ := ldouble_raw (wd := 8) (sg := false) enc 0 0 (sample_stored _) rfl (by decide) (by unfold IsSize; decide) hv
  refine ⟨code, h1, h4.trans ?_⟩
  have ht : trunc (2 ^ 63 + 1) = 2 ^ 63 + 1 := by
    unfold trunc; rw [if_pos (by positivity)]; norm_num [Int.floor_eq_iff]
  rw [ht]; decide

/-! ### C56: the stack pointer -/

/-- What `loadCast` is given is as it should be, and a signed operand of 2 or 4 bytes does not go
to `long double` through a pointer. -/
def Balanced (s : CM) (enc : Nat → Option ℚ → List UInt8) (limit two64 : Int) : Opnd → Ty → Prop
  | .int v, .int wd _ => v.Good s.m ∧ IsSize wd
  | .int v, .real w => v.Good s.m ∧ IsReal w ∧ ∀ off width, v.field = some (off, width) → v.signed = true → width ≤ 32
  | .int v, .ldouble => v.Good s.m ∧ Const s 10 two64 (2 ^ 64) ∧
      (v.signed = false ∨ v.sz = 1 ∨ (v.field = none ∧ ∃ p, v.src = .place p ∧ ∀ r, p ≠ .temp r) ∨
        (v.sz = 8 ∧ ∃ p o, v.src = .deref p o))
  | .real sz src, .int wd sg => RealGood s sz src ∧ IsReal sz ∧ IsSize wd ∧ Const s sz limit (2 ^ 63) ∧
      ∃ x, realOf s sz src = some x ∧ Fits wd sg (trunc x)
  | .real sz src, .real _ => RealGood s sz src ∧ ∃ x, realOf s sz src = some x
  | .real sz src, .ldouble => Stored s sz src ∧ IsReal sz
  | .ldouble src, .int wd _ => Stored s 16 src ∧ IsSize wd ∧ (0 ≤ s.cw ∧ s.cw < 65536) ∧ ∃ x, num (bytes s.m src 10) = some x
  | .ldouble src, .real w => Stored s 16 src ∧ IsReal w ∧ Encodes enc ∧
      ∃ x, num (bytes s.m src 10) = some x ∧ ∃ bs, bs.length = w ∧ num bs = some (rnd (prec w) x)
  | .ldouble src, .ldouble => Stored s 16 src

/-- After every conversion `%rsp` is what it was, as are all registers but four, the memory above
it, and the memory more than 16 bytes below it. -/
theorem C56_conversion_partial {s : CM} {enc} {limit two64 : Int} {v : Opnd} {ty : Ty} (hk : s.skip = none)
    (h : Balanced s enc limit two64 v ty) :
    ∃ code, loadCast limit two64 v ty = some code ∧ (run enc s code).m.reg SP = s.m.reg SP ∧
      (∀ r, r ∉ used → (run enc s code).m.reg r = s.m.reg r) ∧
      ∀ x, x < s.m.reg SP - 16 ∨ s.m.reg SP ≤ x → (run enc s code).m.mem x = s.m.mem x := by
  have key : ∀ {regs : List Nat}, (∀ r ∈ regs, r ∈ used) → (∃ code, loadCast limit two64 v ty = some code ∧
      Kept s (run enc s code) regs) → ∃ code, loadCast limit two64 v ty = some code ∧ (run enc s code).m.reg SP = s.m.reg SP ∧
      (∀ r, r ∉ used → (run enc s code).m.reg r = s.m.reg r) ∧
      ∀ x, x < s.m.reg SP - 16 ∨ s.m.reg SP ≤ x → (run enc s code).m.mem x = s.m.mem x := by
    rintro regs hr ⟨code, h1, h2⟩
    have h3 := h2.mono hr
    exact ⟨code, h1, h3.reg SP sp_used, h3.reg, h3.mem⟩
  cases v with
  | int v =>
    cases ty with
    | int wd sg =>
      obtain ⟨a, b⟩ := h
      obtain ⟨code, h1, h2, _⟩ := int_int (sg := sg) enc limit two64 a hk b
      exact key (by decide) ⟨code, h1, h2⟩
    | real w =>
      obtain ⟨a, b, c⟩ := h
      obtain ⟨code, h1, h2, _⟩ := int_real enc limit two64 a hk b c
      exact key (by decide) ⟨code, h1, h2⟩
    | ldouble =>
      obtain ⟨a, b, c⟩ := h
      obtain ⟨code, h1, h2, _⟩ := C86_integer_to_ldouble_partial enc limit two64 a hk b c
      exact key (fun _ h => h) ⟨code, h1, h2⟩
  | real sz src =>
    cases ty with
    | int wd sg =>
      obtain ⟨a, b, c, d, x, e, f⟩ := h
      obtain ⟨code, h1, h2, _⟩ := real_int enc limit two64 a b hk e c f d
      exact key (by decide) ⟨code, h1, h2⟩
    | real w =>
      obtain ⟨a, x, b⟩ := h
      obtain ⟨code, h1, h2, _⟩ := real_real (w := w) enc limit two64 a hk b
      exact key (by decide) ⟨code, h1, h2⟩
    | ldouble =>
      obtain ⟨a, b⟩ := h
      obtain ⟨code, h1, h2, _⟩ := C86_real_to_ldouble_partial enc limit two64 a hk b
      exact key (fun _ h => h) ⟨code, h1, h2⟩
  | ldouble src =>
    cases ty with
    | int wd sg =>
      obtain ⟨a, b, c, x, d⟩ := h
      obtain ⟨code, h1, h2, _⟩ := ldouble_raw (sg := sg) enc limit two64 a hk c b d
      exact key (fun _ h => h) ⟨code, h1, h2⟩
    | real w =>
      obtain ⟨a, b, c, x, d, e⟩ := h
      obtain ⟨code, h1, h2, _⟩ := ldouble_real c limit two64 a hk b d e
      exact key (fun _ h => h) ⟨code, h1, h2⟩
    | ldouble =>
      obtain ⟨code, h1, h2, _⟩ := C86_ldouble_partial enc limit two64 h hk
      exact key (fun _ h => h) ⟨code, h1, h2⟩

example (enc) : Balanced (sample [1]) enc 0 0 (.ldouble (.place (.global 4096))) .ldouble := sample_stored _

/-- `int *p; (long double) *p`: `%rsp` is 4 lower, for a `short` 6, and stays so until the
function returns; calls after it find a stack that is not aligned.  The value is right. -/
theorem C56_dereferenced_violated {v : Val} {s : CM} {two64 : Int} (enc) (hg : v.Good s.m) (hk : s.skip = none)
    (hs : v.signed = true) (h2 : v.sz = 2 ∨ v.sz = 4) {p : Place} {o : Nat} (hp : v.src = .deref p o) :
    ∃ code, loadCast 0 two64 (.int v) .ldouble = some code ∧ (run enc s code).m.reg SP ≠ s.m.reg SP ∧
      (run enc s code).m.reg SP = s.m.reg SP - (8 - v.sz) ∧ (run enc s code).st = some (v.value s.m : ℚ) :: s.st := by
  obtain ⟨code, h1, h3, h4, _⟩ := deref_ldouble (two64 := two64) enc hg hk hs (by omega) hp
  exact ⟨code, h1, by omega, h3, h4⟩

/-- Such an operand: an `int` equal to 7, to which `%rbx` points. -/
example : (Val.mk 4 true none (.deref (.temp BX) 0)).Good (sample [7]).m ∧
    (Val.mk 4 true none (.deref (.temp BX) 0)).value (sample [7]).m = 7 := by
  refine ⟨⟨by unfold IsSize; decide, by simp, by simp, by simp, ?_, by simp⟩, by decide +kernel⟩
  intro r o h
  simp only [Src.deref.injEq, Place.temp.injEq] at h
  obtain ⟨rfl, _⟩ := h
  decide

end Verif.Conv
