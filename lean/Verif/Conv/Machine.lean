import Verif.Conv.Num

/-!
# A machine with floating point

The machine of `Abi/Machine.lean`, with numbers in the vector registers, the x87 stack and its
control word, the flags that are needed, and jumps forward.  Instructions as in the Intel
SDM, vol. 2.
-/

namespace Verif.Conv

open Verif.Abi (M Ea Ins val sval le rd byteAt merged)

/-- A register or memory. -/
inductive Opd
  | reg (r : Nat)
  | mem (a : Ea)
  deriving DecidableEq, Repr

inductive CIns
  /-- An instruction that has nothing to do with floating point. -/
  | int (i : Ins)
  /-- Shifts of `w` bytes by a constant; to the right with or without sign. -/
  | shl (w d n : Nat)
  | shr (signed : Bool) (w d n : Nat)
  | andi (w d : Nat) (v : Nat)
  | ori (w d : Nat) (v : Nat)
  /-- 64 bits: `d := d | s`, `d := d ^ s`. -/
  | or (d s : Nat)
  | xor (d s : Nat)
  /-- `test` of a 64 bit register with itself. -/
  | test (d : Nat)
  | label (n : Nat)
  | jmp (n : Nat)
  | js (n : Nat)
  | jns (n : Nat)
  | jae (n : Nat)
  /-- `cvtsi2ss`, `cvtsi2sd`: from an integer of `w` bytes to a number of `fw`. -/
  | cvtsi2s (w fw d : Nat) (s : Opd)
  /-- `cvttss2si`, `cvttsd2si`: from a number of `fw` bytes to an integer of `w`. -/
  | cvtts2si (fw w d : Nat) (s : Opd)
  /-- `movss`, `movsd`. -/
  | movs (w d : Nat) (s : Opd)
  /-- `cvtss2sd`, `cvtsd2ss`, from `w` bytes. -/
  | cvts2s (w fw d : Nat) (s : Opd)
  /-- Compares `d` with `s`. -/
  | ucomis (d s : Nat)
  | adds (w d s : Nat)
  | subs (w d s : Nat)
  | fild (w : Nat) (a : Ea)
  | fld (w : Nat) (a : Ea)
  | faddp
  | fstp (w : Nat) (a : Ea)
  | fistp (w : Nat) (a : Ea)
  | fnstcw (a : Ea)
  | fldcw (a : Ea)
  deriving DecidableEq, Repr

structure CM where
  m : M
  /-- The numbers in vector registers; none is infinity or NaN. -/
  xmm : Nat → Option ℚ
  /-- The x87 stack, top first. -/
  st : List (Option ℚ)
  /-- The control word. -/
  cw : Int
  sf : Bool
  cf : Bool
  /-- Jumping to this label. -/
  skip : Option Nat

/-- The signed integer in the low `w` bytes. -/
def low (w : Nat) (v : Int) : Int := sval (le w v)

def CM.setInt (s : CM) (w d : Nat) (v : Int) : CM :=
  { s with m := s.m.set d (merged (decide (w < 4)) w (s.m.reg d) v) }

def CM.setNum (s : CM) (d : Nat) (x : Option ℚ) : CM :=
  { s with xmm := fun r => if r = d then x else s.xmm r }

/-- An integer operand of `w` bytes, signed. -/
def CM.intOpd (s : CM) (w : Nat) : Opd → Int
  | .reg r => low w (s.m.reg r)
  | .mem a => sval (rd s.m.mem (s.m.ea a) w)

/-- A number operand of `w` bytes. -/
def CM.numOpd (s : CM) (w : Nat) : Opd → Option ℚ
  | .reg r => s.xmm r
  | .mem a => num (rd s.m.mem (s.m.ea a) w)

/-- An integer of `w` bytes from a number that has been made an integer already: the "integer
indefinite" if there is none. -/
def toInt (w : Nat) : Option Int → Int
  | some i => if -(2 ^ (8 * w - 1)) ≤ i ∧ i < 2 ^ (8 * w - 1) then i else -(2 ^ (8 * w - 1))
  | none => -(2 ^ (8 * w - 1))

/-- Rounding as the control word says: bits 10 and 11, 3 is truncation, 0 is to nearest.  The
other modes are not used. -/
def byControl (cw : Int) (x : ℚ) : Int := if cw / 1024 % 4 = 3 then trunc x else halfEven x

/-- One instruction.  `enc` is how `fstp` writes a number of `w` bytes. -/
def exec (enc : Nat → Option ℚ → List UInt8) (s : CM) : CIns → CM
  | .int i => { s with m := Abi.step s.m i }
  | .shl w d n => s.setInt w d (val (le w (s.m.reg d)) * 2 ^ n)
  | .shr sg w d n => s.setInt w d ((if sg then low w (s.m.reg d) else val (le w (s.m.reg d))) / 2 ^ n)
  | .andi w d v => s.setInt w d ((val (le w (s.m.reg d))).toNat &&& v : Nat)
  | .ori w d v => s.setInt w d ((val (le w (s.m.reg d))).toNat ||| v : Nat)
  | .or d r => s.setInt 8 d ((val (le 8 (s.m.reg d))).toNat ||| (val (le 8 (s.m.reg r))).toNat : Nat)
  | .xor d r => s.setInt 8 d ((val (le 8 (s.m.reg d))).toNat ^^^ (val (le 8 (s.m.reg r))).toNat : Nat)
  | .test d => { s with sf := decide (low 8 (s.m.reg d) < 0) }
  | .label _ => s
  | .jmp n => { s with skip := some n }
  | .js n => if s.sf then { s with skip := some n } else s
  | .jns n => if s.sf then s else { s with skip := some n }
  | .jae n => if s.cf then s else { s with skip := some n }
  | .cvtsi2s w fw d o => s.setNum d (some (rnd (prec fw) (s.intOpd w o)))
  | .cvtts2si fw w d o => s.setInt w d (toInt w ((s.numOpd fw o).map trunc))
  | .movs w d o => s.setNum d (s.numOpd w o)
  | .cvts2s w fw d o => s.setNum d ((s.numOpd w o).map (rnd (prec fw)))
  | .ucomis d r =>
    { s with cf := match s.xmm d, s.xmm r with
      | some x, some y => decide (x < y)
      | _, _ => true }
  | .adds w d r =>
    s.setNum d (match s.xmm d, s.xmm r with
      | some x, some y => some (rnd (prec w) (x + y))
      | _, _ => none)
  | .subs w d r =>
    s.setNum d (match s.xmm d, s.xmm r with
      | some x, some y => some (rnd (prec w) (x - y))
      | _, _ => none)
  | .fild w a => { s with st := some (sval (rd s.m.mem (s.m.ea a) w) : ℚ) :: s.st }
  | .fld w a => { s with st := num (rd s.m.mem (s.m.ea a) w) :: s.st }
  | .faddp =>
    match s.st with
    | a :: b :: rest =>
      { s with st := (match a, b with
        | some x, some y => some (rnd 64 (x + y))
        | _, _ => none) :: rest }
    | _ => s
  | .fstp w a =>
    match s.st with
    | x :: rest => { s with m := s.m.write (s.m.ea a) (enc w x), st := rest }
    | _ => s
  | .fistp w a =>
    match s.st with
    | x :: rest =>
      { s with m := s.m.write (s.m.ea a) (le w (toInt w (x.map (byControl s.cw)))), st := rest }
    | _ => s
  | .fnstcw a => { s with m := s.m.write (s.m.ea a) (le 2 s.cw) }
  | .fldcw a => { s with cw := val (rd s.m.mem (s.m.ea a) 2) }

/-- Instructions up to the label are passed over after a jump. -/
def step (enc : Nat → Option ℚ → List UInt8) (s : CM) (i : CIns) : CM :=
  match s.skip with
  | none => exec enc s i
  | some n => if i = .label n then { s with skip := none } else s

def run (enc : Nat → Option ℚ → List UInt8) (s : CM) (is : List CIns) : CM := is.foldl (step enc) s

end Verif.Conv
