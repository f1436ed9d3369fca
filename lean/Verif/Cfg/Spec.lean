import Verif.Cfg.Model

/-!
# The meaning of statements (C11 6.5.13-6.5.17, 6.8) and of control flow graphs

`sstep` is the abstract machine for statements: a statement, the continuation that says what comes after it, and the state.
`cstep` executes a control flow graph.
-/

namespace Verif.Cfg

variable {σ : Type}

/-- 6.5.13-6.5.17: state afterwards and value. -/
def Expr.eval [Prim σ] : Expr σ → St σ → St σ × Int
  | .imm n, u => (u, n)
  | .prim _ c p, u =>
    let u' := Prim.act p u
    (u', if c then (if Prim.val p u' ≠ 0 then 1 else 0) else Prim.val p u')
  | .app c p e, u =>
    let u' := Prim.put p (e.eval u).2 (e.eval u).1
    (u', if c then (if Prim.val p u' ≠ 0 then 1 else 0) else Prim.val p u')
  | .not e, u => ((e.eval u).1, if (e.eval u).2 = 0 then 1 else 0)
  | .and a b, u =>
    if (a.eval u).2 = 0 then ((a.eval u).1, 0)
    else ((b.eval (a.eval u).1).1, if (b.eval (a.eval u).1).2 = 0 then 0 else 1)
  | .or a b, u =>
    if (a.eval u).2 ≠ 0 then ((a.eval u).1, 1)
    else ((b.eval (a.eval u).1).1, if (b.eval (a.eval u).1).2 = 0 then 0 else 1)
  | .cond c a b, u => if (c.eval u).2 ≠ 0 then a.eval (c.eval u).1 else b.eval (c.eval u).1
  | .comma a b, u => b.eval (a.eval u).1

/-- What comes after a statement. -/
inductive Cont (σ : Type)
  | stop
  | seq (t : Stmt σ) (k : Cont σ)
  | whileK (c : Expr σ) (s : Stmt σ) (k : Cont σ)
  | doK (s : Stmt σ) (c : Expr σ) (k : Cont σ)
  | forK (c n : Option (Expr σ)) (s : Stmt σ) (k : Cont σ)
  | switchK (k : Cont σ)

/-- States of the abstract machine; `υ`: states of the program. -/
inductive SState (σ υ : Type)
  | exec (s : Stmt σ) (k : Cont σ) (u : υ)
  | next (k : Cont σ) (u : υ)
  | again (k : Cont σ) (u : υ)
  | test (c n : Option (Expr σ)) (s : Stmt σ) (k : Cont σ) (u : υ)
  | done (u : υ) (r : Option Int)

/-- 6.8.6.3: `break` leaves the innermost loop or switch. -/
def Cont.break : Cont σ → Option (Cont σ)
  | .stop => none
  | .seq _ k => k.break
  | .whileK _ _ k | .doK _ _ k | .forK _ _ _ k | .switchK k => some k

/-- 6.8.6.2: `continue` goes to the loop-continuation portion of the innermost loop (`SState.again`). -/
def Cont.continue : Cont σ → Option (Cont σ)
  | .stop => none
  | .seq _ k => k.continue
  | .switchK k => k.continue
  | k => some k

/-- The statement after the first `case n` that belongs to a switch with body `s`, with what follows it. -/
def findCase (n : Int) : Stmt σ → Cont σ → Option (Stmt σ × Cont σ)
  | .seq s t, k => (findCase n s (.seq t k)).or (findCase n t k)
  | .ite _ s, k => findCase n s k
  | .ifElse _ s t, k => (findCase n s k).or (findCase n t k)
  | .while c s, k => findCase n s (.whileK c s k)
  | .doWhile s c, k => findCase n s (.doK s c k)
  | .for _ c i s, k => findCase n s (.forK c i s k)
  | .label _ s, k => findCase n s k
  | .case m s, k => if m = n then some (s, k) else findCase n s k
  | .default s, k => findCase n s k
  | _, _ => none

/-- The statement after `default`. -/
def findDefault : Stmt σ → Cont σ → Option (Stmt σ × Cont σ)
  | .seq s t, k => (findDefault s (.seq t k)).or (findDefault t k)
  | .ite _ s, k => findDefault s k
  | .ifElse _ s t, k => (findDefault s k).or (findDefault t k)
  | .while c s, k => findDefault s (.whileK c s k)
  | .doWhile s c, k => findDefault s (.doK s c k)
  | .for _ c i s, k => findDefault s (.forK c i s k)
  | .label _ s, k => findDefault s k
  | .case _ s, k => findDefault s k
  | .default s, k => some (s, k)
  | _, _ => none

/-- The statement after a label, anywhere in the function. -/
def findLabel (l : Nat) : Stmt σ → Cont σ → Option (Stmt σ × Cont σ)
  | .seq s t, k => (findLabel l s (.seq t k)).or (findLabel l t k)
  | .ite _ s, k => findLabel l s k
  | .ifElse _ s t, k => (findLabel l s k).or (findLabel l t k)
  | .while c s, k => findLabel l s (.whileK c s k)
  | .doWhile s c, k => findLabel l s (.doK s c k)
  | .for _ c i s, k => findLabel l s (.forK c i s k)
  | .label m s, k => if m = l then some (s, k) else findLabel l s k
  | .switch _ s, k => findLabel l s (.switchK k)
  | .case _ s, k => findLabel l s k
  | .default s, k => findLabel l s k
  | _, _ => none

/-- 6.8.4.2: where a switch with body `s` goes for the value `n`. -/
def switchTo {υ : Type} (n : Int) (s : Stmt σ) (k : Cont σ) (u : υ) : SState σ υ :=
  match findCase n s (.switchK k) with
  | some (t, k') => .exec t k' u
  | none =>
    match findDefault s (.switchK k) with
    | some (t, k') => .exec t k' u
    | none => .next k u

/-- An expression whose value is not used, or none. -/
def evalOpt {υ : Type} (ev : Expr σ → υ → Option (υ × Int)) : Option (Expr σ) → υ → Option υ
  | none, u => some u
  | some e, u => (ev e u).map (·.1)

/-- One step of the abstract machine; `body` is the body of the function and `ev` evaluates expressions (`none`: undefined
behaviour; the machine stops). -/
def sstepWith {υ : Type} (ev : Expr σ → υ → Option (υ × Int)) (body : Stmt σ) : SState σ υ → Option (SState σ υ)
  | .exec .skip k u => some (.next k u)
  | .exec (.expr e) k u => (ev e u).map fun r => .next k r.1
  | .exec (.seq s t) k u => some (.exec s (.seq t k) u)
  | .exec (.ite c s) k u => (ev c u).map fun r => if r.2 ≠ 0 then .exec s k r.1 else .next k r.1
  | .exec (.ifElse c s t) k u => (ev c u).map fun r => .exec (if r.2 ≠ 0 then s else t) k r.1
  | .exec (.while c s) k u => (ev c u).map fun r => if r.2 ≠ 0 then .exec s (.whileK c s k) r.1 else .next k r.1
  | .exec (.doWhile s c) k u => some (.exec s (.doK s c k) u)
  | .exec (.for i c n s) k u => (evalOpt ev i u).map fun u' => .test c n s k u'
  | .exec .brk k u => k.break.map fun k' => .next k' u
  | .exec .cont k u => k.continue.map fun k' => .again k' u
  | .exec (.ret none) _ u => some (.done u none)
  | .exec (.ret (some e)) _ u => (ev e u).map fun r => .done r.1 (some r.2)
  | .exec (.goto l) _ u => (findLabel l body .stop).map fun r => .exec r.1 r.2 u
  | .exec (.label _ s) k u => some (.exec s k u)
  | .exec (.switch e s) k u => (ev e u).map fun r => switchTo r.2 s k r.1
  | .exec (.case _ s) k u => some (.exec s k u)
  | .exec (.default s) k u => some (.exec s k u)
  | .next .stop u => some (.done u none)
  | .next (.seq t k) u => some (.exec t k u)
  | .next (.whileK c s k) u => some (.again (.whileK c s k) u)
  | .next (.doK s c k) u => some (.again (.doK s c k) u)
  | .next (.forK c n s k) u => some (.again (.forK c n s k) u)
  | .next (.switchK k) u => some (.next k u)
  | .again (.whileK c s k) u => (ev c u).map fun r => if r.2 ≠ 0 then .exec s (.whileK c s k) r.1 else .next k r.1
  | .again (.doK s c k) u => (ev c u).map fun r => if r.2 ≠ 0 then .exec s (.doK s c k) r.1 else .next k r.1
  | .again (.forK c n s k) u => (evalOpt ev n u).map fun u' => .test c n s k u'
  | .again _ _ => none
  | .test none n s k u => some (.exec s (.forK none n s k) u)
  | .test (some c) n s k u => (ev c u).map fun r => if r.2 ≠ 0 then .exec s (.forK (some c) n s k) r.1 else .next k r.1
  | .done _ _ => none

/-- The abstract machine, where expressions have a meaning in every state. -/
def sstep [Prim σ] (body : Stmt σ) : SState σ (St σ) → Option (SState σ (St σ)) := sstepWith (fun e u => some (e.eval u)) body

def SState.user {υ : Type} : SState σ υ → υ
  | .exec _ _ u | .next _ u | .again _ u | .test _ _ _ _ u | .done u _ => u

/-- `n` steps of the abstract machine. -/
def SRun [Prim σ] (body : Stmt σ) : Nat → SState σ (St σ) → SState σ (St σ) → Prop
  | 0, s, t => s = t
  | n + 1, s, t => ∃ m, sstep body s = some m ∧ SRun body n m t

/-- The function body, started in state `u`, ends in state `u'` with returned value `r`. -/
def Ends [Prim σ] (body : Stmt σ) (u u' : St σ) (r : Option Int) : Prop := ∃ n, SRun body n (.exec body .stop u) (.done u' r)

/-- `break` and `continue` are used inside loops and switches (6.8.6.2, 6.8.6.3); labels that are used satisfy `P`. -/
def Stmt.wf (P : Nat → Prop) (brk cnt : Bool) : Stmt σ → Prop
  | .seq s t => s.wf P brk cnt ∧ t.wf P brk cnt
  | .ite _ s => s.wf P brk cnt
  | .ifElse _ s t => s.wf P brk cnt ∧ t.wf P brk cnt
  | .while _ s => s.wf P true true
  | .doWhile s _ => s.wf P true true
  | .for _ _ _ s => s.wf P true true
  | .brk => brk = true
  | .cont => cnt = true
  | .goto l => P l
  | .label _ s => s.wf P brk cnt
  | .switch _ s => s.wf P true cnt
  | .case _ s => s.wf P brk cnt
  | .default s => s.wf P brk cnt
  | _ => True

/-- 6.8.6.2, 6.8.6.3: every `break` is in a loop or switch, every `continue` in a loop. -/
def WellFormed (body : Stmt σ) : Prop := body.wf (fun _ => True) false false

/-- 6.8.6.1: every label that is used is there. -/
def LabelsExist (body : Stmt σ) : Prop := body.wf (fun l => (findLabel l body .stop).isSome = true) true true

/-! Execution of a graph. -/

structure CState (σ : Type) [Prim σ] where
  blk : Nat
  pc : Nat
  mem : Mem σ

/-- One step: a statement, or the jump at the end of a block (`compile_block`, x86_64/compile.c:3149-3287); `none`: returned. -/
def cstep [Prim σ] (G : Nat → Block σ) (s : CState σ) : Option (CState σ) :=
  match (G s.blk).acts[s.pc]? with
  | some a => some ⟨s.blk, s.pc + 1, a.run s.mem⟩
  | none =>
    match (G s.blk).j1 with
    | some t =>
      if (G s.blk).expr.get s.mem ≠ 0 then some ⟨t, 0, s.mem⟩
      else (G s.blk).j0.map fun f => ⟨f, 0, s.mem⟩
    | none => (G s.blk).j0.map fun t => ⟨t, 0, s.mem⟩

def CRun [Prim σ] (G : Nat → Block σ) : Nat → CState σ → CState σ → Prop
  | 0, s, t => s = t
  | n + 1, s, t => ∃ m, cstep G s = some m ∧ CRun G n m t

/-- The value returned in the last block. -/
def returned [Prim σ] (G : Nat → Block σ) (s : CState σ) : Option Int :=
  if (G s.blk).ret then some ((G s.blk).expr.get s.mem) else none

/-- The graph, entered at block 0 with state `u`, returns in state `u'` with value `r`. -/
def Returns [Prim σ] (G : Nat → Block σ) (u u' : St σ) (r : Option Int) : Prop :=
  ∀ tmp, ∃ n t, CRun G n ⟨0, 0, u, tmp⟩ t ∧ cstep G t = none ∧ t.mem.user = u' ∧ returned G t = r

end Verif.Cfg
