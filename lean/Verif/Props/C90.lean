import Verif.Ptr.StmLemmas

/-!
# C90: pointers, array elements and members designate the right objects

The source is `E` and `Stm`; what it means is `E.meaning` and `exec` in Verif/Ptr/Spec.lean, after C99 6.5.2, 6.5.3, 6.5.6,
6.5.8, 6.5.9 and 6.5.16: objects are at addresses in a memory of bytes, `a[i]` is `i` times the size of an element after the
first, members are at their offsets.  `lowerAll` is what the parser makes of statements (src/parser/expression.c,
src/parser/eval.c), a list of assignments of temporaries and objects; `execs` runs them.

Not covered, so the names end in `_partial`: casts to `_Bool` (C88), bit-fields, floating point, arrays of variable length, calls,
`&&`, `||`, `?:`, the comma operator, assignments within expressions, functions as operands, qualifiers; structures of 2 GB or
more, for which the claim does not hold (`C90_member_address_violated`).  The back end is C91.
Pointer arithmetic is defined in `World.step` whenever the result is an address in the lower half of the address space, which is
more than C defines.  Accesses are defined only inside of objects (`World.valid`).
-/

namespace Verif.Ptr

open Verif.Types.Spec (Basic)
open Verif.Fold.Spec (conv fits)

/-! ### A program to look at

`struct S { int a; char b[3]; struct S *next; } x[4], *p, s; int i; long d; char *c; _Bool t;` -/

def node : Rec := ⟨16, [(0, .int .int, 0), (1, .arr 3 (.int .char), 4), (2, .ptr (.record 0), 8)]⟩

def nodes : World where
  var i := match i with
    | 0 => .arr 4 (.record 0)
    | 1 => .ptr (.record 0)
    | 2 => .int .int
    | 3 => .int .long
    | 4 => .ptr (.int .char)
    | 5 => .record 0
    | 6 => .int .bool
    | _ => .int .char
  recs _ := node
  addr i := 4096 + 64 * (i % 8 : Nat)
  valid a := 4096 ≤ a && a < 4096 + 512

/-- `p = x + 1; p->next = &x[3]; p->next->b[2] = -7; x[2].a = p->next - p; c = p->next->b; d = c[2]; t = p < p->next; s = x[3]; ++p;
i = !(p == 0); i++; 2[x].a *= 5; *(c + 1) = (char) d + 1; c = 0; p -= 1;` -/
def nodesProgram : List Stm :=
  let x := E.var 0
  let p := E.var 1
  let n (k : Int) := E.num .int k
  [.assign p (.bin .add x (n 1)),
    .assign (.arrow p 2) (.addr (.index x (n 3))),
    .assign (.index (.arrow (.arrow p 2) 1) (n 2)) (n (-7)),
    .assign (.dot (.index x (n 2)) 0) (.bin .sub (.arrow p 2) p),
    .assign (.var 4) (.arrow (.arrow p 2) 1),
    .assign (.var 3) (.index (.var 4) (n 2)),
    .assign (.var 6) (.rel .lt p (.arrow p 2)),
    .assign (.var 5) (.index x (n 3)),
    .pre true p,
    .assign (.var 2) (.lnot (.rel .eq p (n 0))),
    .post true (.var 2),
    .update .mul (.dot (.index (n 2) x) 0) (n 5),
    .assign (.deref (.bin .add (.var 4) (n 1))) (.bin .add (.cast (.int .char) (.var 3)) (n 1)),
    .assign (.var 4) (n 0),
    .update .sub p (n 1)]

theorem member_nodes {k m : Nat} {t : CTy} {off : Nat} (h : nodes.member k m = some (t, off)) :
    (t, off) = (.int .int, 0) ∨ (t, off) = (.arr 3 (.int .char), 4) ∨ (t, off) = (.ptr (.record 0), 8) := by
  simp only [World.member, nodes, node, List.find?] at h
  split at h
  · cases h; exact .inl rfl
  · split at h
    · cases h; exact .inr (.inl rfl)
    · split at h
      · cases h; exact .inr (.inr rfl)
      · cases h

theorem nodes_size (i : Nat) : ((nodes.var i).size nodes.toDecls : Int) ≤ 64 := by
  simp only [nodes]
  split <;> decide

theorem nodes_good : nodes.Good := by
  constructor
  · intro i
    have hs := nodes_size i
    have : nodes.addr i = 4096 + 64 * (i % 8 : Nat) := rfl
    rw [this]
    unfold top
    omega
  · intro i j hj
    have hs := nodes_size i
    have : nodes.addr i = 4096 + 64 * (i % 8 : Nat) := rfl
    rw [this]
    simp only [nodes, Bool.and_eq_true, decide_eq_true_eq]
    omega
  · intro k; show (16 : Nat) < _; decide
  · intro k m t off h
    rcases member_nodes h with h | h | h <;> cases h <;> (show _ ≤ 16; decide)
  · intro i
    simp only [nodes]
    split <;> (first | exact rfl | exact trivial)
  · intro k m t off h
    rcases member_nodes h with h | h | h <;> cases h <;> (first | exact rfl | exact trivial)

theorem nodes_ok : ∀ s ∈ nodesProgram, s.Ok := by
  have f : ∀ k : Int, -100 ≤ k → k ≤ 100 → fits .int k := fun k h1 h2 => ⟨_, _, rfl, by omega, by omega⟩
  simp only [nodesProgram, List.mem_cons, List.not_mem_nil, or_false]
  rintro s h
  rcases h with h | h | h | h | h | h | h | h | h | h | h | h | h | h | h <;> subst h <;>
    simp only [Stm.Ok, E.Ok, CTy.Ok] <;> and_intros <;>
      first | exact trivial | exact f _ (by decide) (by decide) | exact rfl | (intro h; cases h)

def zeroed : Mem := fun _ => 0

/-! ### The theorems -/

/-- After an expression that is an lvalue has been evaluated, the operand designates that object, and memory is as before. -/
theorem C90_object_partial {W : World} (hW : W.Good) {e : E} (ok : e.Ok) {mem : Mem} {t : CTy} {a : Int}
    (h : e.meaning W mem = some (.lv t a)) :
    ∃ v n st σ, (lower W.toDecls e >>= eval) 0 = some (v, n, st) ∧ execs W ⟨mem, fun _ => none⟩ st = some σ ∧
      σ.mem = mem ∧ v.ty = t ∧ v.place W σ = some a := by
  have : Sound W ⟨mem, fun _ => none⟩ 0 (lower W.toDecls e >>= eval) fun σ' n' v => σ'.mem = mem ∧ VRes W n' σ' v (.lv t a) := by
    refine .bind (lower_sound hW e ok h) ?_
    rintro σ1 n1 e1 l1 ⟨k1, h1⟩
    refine (evalRes h1).weaken ?_
    rintro σ2 n2 x l2 ⟨k2, hx⟩
    exact ⟨(k1.trans k2 l1).mem, hx⟩
  obtain ⟨v, n, st, σ, h1, _, h2, h3, h4⟩ := this
  exact ⟨v, n, st, σ, h1, h2.1, h3, h4.1.ty, h4.1.place⟩

/-- `p->next->b[2]`, when `p` is `x + 1` and its `next` is `x + 3`. -/
example : (E.index (.arrow (.arrow (.var 1) 2) 1) (.num .int 2)).meaning nodes
    (fun a => if a = 4161 then 16 else if a = 4160 then 16 else if a = 4120 then 48 else if a = 4121 then 16 else 0) =
      some (.lv (.int .char) (4096 + 3 * 16 + 4 + 2)) := by decide +kernel

/-- After an expression that has a value, also an array, which is then a pointer, the operand has that value and type. -/
theorem C90_value_partial {W : World} (hW : W.Good) {e : E} (ok : e.Ok) {mem : Mem} {res : Res} {t : CTy} {x : Int}
    (h : e.meaning W mem = some res) (hv : res.value W mem = some (t, x)) :
    ∃ v n st σ, (lower W.toDecls e >>= fun e => eval e >>= rvalue W.toDecls) 0 = some (v, n, st) ∧
      execs W ⟨mem, fun _ => none⟩ st = some σ ∧ σ.mem = mem ∧ v.ty = t ∧ v.read W σ = some x := by
  have : Sound W ⟨mem, fun _ => none⟩ 0 (lower W.toDecls e >>= fun e => eval e >>= rvalue W.toDecls) fun σ' n' v =>
      σ'.mem = mem ∧ PVal W n' σ' v t x := by
    refine .bind (lower_sound hW e ok h) ?_
    rintro σ1 n1 e1 l1 ⟨k1, h1⟩
    refine .bind (evalRes h1) ?_
    rintro σ2 n2 x l2 ⟨k2, hx⟩
    have k12 := k1.trans k2 l1
    refine (rvalue_sound hW hx (value_keep_res k12 hv)).weaken ?_
    rintro σ3 n3 v l3 ⟨k3, hv⟩
    exact ⟨k3.mem.trans k12.mem, hv⟩
  obtain ⟨v, n, st, σ, h1, _, h2, h3, h4⟩ := this
  exact ⟨v, n, st, σ, h1, h2.1, h3, h4.ty, h4.read⟩

/-- `&x[3] - (x + 1)` is 2. -/
example : (E.bin .sub (.addr (.index (.var 0) (.num .int 3))) (.bin .add (.var 0) (.num .int 1))).meaning nodes zeroed =
    some (.rv (.int .long) 2) := by decide +kernel

/-- Statements change memory as they should, and nothing else. -/
theorem C90_program_partial {W : World} (hW : W.Good) {p : List Stm} (ok : ∀ s ∈ p, s.Ok) {mem mem' : Mem} (h : exec W mem p = some mem') :
    ∃ n st σ, lowerAll W.toDecls p 0 = some ((), n, st) ∧ execs W ⟨mem, fun _ => none⟩ st = some σ ∧ σ.mem = mem' := by
  obtain ⟨_, n, st, σ, h1, _, h2, h3⟩ := lowerAll_sound hW ok (σ := ⟨mem, fun _ => none⟩) (n := 0) h
  exact ⟨n, st, σ, h1, h2.1, h3⟩

/-- What the sample leaves behind: `x[2].a` is 10, `x[3].b[1]` is -6, `d` is -7, `t` is 1, `s.b[2]` is -7, `i` is 2, `c` is null
and `p` is `x + 1`. -/
def nodesAfter (mem : Mem) : List (Option Int) :=
  [scalar nodes mem (.int .int) (4096 + 32), scalar nodes mem (.int .char) (4096 + 48 + 4 + 1), scalar nodes mem (.int .long) (4096 + 64 * 3),
    scalar nodes mem (.int .bool) (4096 + 64 * 6), scalar nodes mem (.int .char) (4096 + 64 * 5 + 4 + 2), scalar nodes mem (.int .int) (4096 + 64 * 2),
    scalar nodes mem (.ptr (.int .char)) (4096 + 64 * 4), scalar nodes mem (.ptr (.record 0)) (4096 + 64)]

theorem nodes_run : (exec nodes zeroed nodesProgram).map nodesAfter =
    some [some 10, some (-6), some (-7), some 1, some (-7), some 2, some 0, some (4096 + 16)] := by decide +kernel

/-- And so does the compiled program. -/
example : ∃ n st σ, lowerAll nodes.toDecls nodesProgram 0 = some ((), n, st) ∧ execs nodes ⟨zeroed, fun _ => none⟩ st = some σ ∧
    nodesAfter σ.mem = [some 10, some (-6), some (-7), some 1, some (-7), some 2, some 0, some (4096 + 16)] := by
  have hr := nodes_run
  obtain ⟨mem', h1, h2⟩ := Option.map_eq_some_iff.mp hr
  obtain ⟨n, st, σ, g1, g2, g3⟩ := C90_program_partial nodes_good nodes_ok h1
  exact ⟨n, st, σ, g1, g2, by rw [g3]; exact h2⟩

/-! ### Structures of 2 GB -/

/-- `struct { char pad[0x80000000]; int x; } *p;`. -/
def huge : World where
  var _ := .ptr (.record 0)
  recs _ := ⟨2 ^ 31 + 4, [(0, .arr (2 ^ 31) (.int .char), 0), (1, .int .int, 2 ^ 31)]⟩
  addr _ := 4096
  valid a := 4096 ≤ a

/-- `p` is 8192. -/
def hugeMem : Mem := fun a => if a = 4097 then 32 else 0

/-- `&p->x` is below `p`: the offset of a member is made an `int` by `eval_addr` (eval.c:1408). -/
theorem C90_member_address_violated :
    (E.addr (.arrow (.var 0) 1)).meaning huge hugeMem = some (.rv (.ptr (.int .int)) (8192 + 2 ^ 31)) ∧
      ∃ v n st σ, (lower huge.toDecls (.addr (.arrow (.var 0) 1)) >>= eval) 0 = some (v, n, st) ∧
        execs huge ⟨hugeMem, fun _ => none⟩ st = some σ ∧ v.read huge σ = some (8192 - 2 ^ 31 + 2 ^ 64) := by
  refine ⟨by decide +kernel, ?_⟩
  refine ⟨.dir (.tmp 0 (.ptr (.int .char))) 0 (.ptr (.int .int)), 1, _, _, rfl, rfl, ?_⟩
  decide +kernel

end Verif.Ptr
