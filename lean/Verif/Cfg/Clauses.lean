import Verif.Cfg.Sim

/-! # Switch statements as lists of clauses -/

namespace Verif.Cfg

set_option linter.unusedSectionVars false

variable {σ : Type} [Prim σ]

/-- `case n:` or `default:` (`none`), an expression statement, the primitive `act`, and possibly `break`. -/
structure Clause (σ : Type) where
  label : Option Int
  act : σ
  brk : Bool

def Clause.stmt (c : Clause σ) : Stmt σ := .expr (.prim true false c.act)

def Clause.tail (c : Clause σ) : Stmt σ := if c.brk then .brk else .skip

def Clause.head (c : Clause σ) : Stmt σ :=
  match c.label with
  | some n => .case n c.stmt
  | none => .default c.stmt

/-- `{ clause clause … }` -/
def clauses : List (Clause σ) → Stmt σ
  | [] => .skip
  | c :: r => .seq c.head (.seq c.tail (clauses r))

/-! What C says. -/

/-- Clauses in order, up to the first `break`. -/
def runClauses : List (Clause σ) → St σ → St σ
  | [], u => u
  | c :: r, u => if c.brk then Prim.act c.act u else runClauses r (Prim.act c.act u)

/-- The clauses from the first one with label `l` on. -/
def fromLabel (l : Option Int) (cl : List (Clause σ)) : List (Clause σ) := cl.dropWhile fun c => c.label ≠ l

/-- 6.8.4.2: from the matching case on, or else from `default` on, or else none. -/
def select (v : Int) (cl : List (Clause σ)) : List (Clause σ) :=
  if ∃ c ∈ cl, c.label = some v then fromLabel (some v) cl else fromLabel none cl

/-! Execution. -/

theorem srun_trans {body : Stmt σ} : ∀ {n m s t u}, SRun body n s t → SRun body m t u → SRun body (n + m) s u
  | 0, m, s, t, u, h1, h2 => by
    rw [show s = t from h1, Nat.zero_add]; exact h2
  | n + 1, m, s, t, u, ⟨x, hx, h1⟩, h2 => by
    rw [show n + 1 + m = (n + m) + 1 by omega]
    exact ⟨x, hx, srun_trans h1 h2⟩

theorem srun_one {body : Stmt σ} {s t : SState σ (St σ)} (h : sstep body s = some t) : SRun body 1 s t := ⟨t, h, rfl⟩

/-- What follows the first statement of a clause. -/
theorem run_tail {body : Stmt σ} (c : Clause σ) (r : List (Clause σ))
    (ih : ∀ u, ∃ n, SRun body n (.exec (clauses r) (.switchK .stop) u) (.done (runClauses r u) none)) (u : St σ) :
    ∃ n, SRun body n (.exec c.stmt (.seq (.seq c.tail (clauses r)) (.switchK .stop)) u) (.done (runClauses (c :: r) u) none) := by
  have h1 : SRun body 3 (.exec c.stmt (.seq (.seq c.tail (clauses r)) (.switchK .stop)) u)
      (.exec c.tail (.seq (clauses r) (.switchK .stop)) (Prim.act c.act u)) := ⟨_, rfl, _, rfl, _, rfl, rfl⟩
  cases hb : c.brk with
  | true =>
    have h2 : SRun body 2 (.exec c.tail (.seq (clauses r) (.switchK .stop)) (Prim.act c.act u)) (.done (runClauses (c :: r) u) none) := by
      rw [show c.tail = .brk by simp [Clause.tail, hb]]
      exact ⟨_, rfl, _, rfl, by rw [runClauses, if_pos hb]; rfl⟩
    exact ⟨_, srun_trans h1 h2⟩
  | false =>
    have h2 : SRun body 2 (.exec c.tail (.seq (clauses r) (.switchK .stop)) (Prim.act c.act u)) (.exec (clauses r) (.switchK .stop) (Prim.act c.act u)) := by
      rw [show c.tail = .skip by simp [Clause.tail, hb]]
      exact ⟨_, rfl, _, rfl, rfl⟩
    obtain ⟨n, hn⟩ := ih (Prim.act c.act u)
    refine ⟨_, srun_trans h1 (srun_trans h2 (t := .exec (clauses r) (.switchK .stop) (Prim.act c.act u)) (m := n) ?_)⟩
    simpa [runClauses, hb] using hn

theorem run_clauses {body : Stmt σ} : ∀ (cl : List (Clause σ)) (u : St σ),
    ∃ n, SRun body n (.exec (clauses cl) (.switchK .stop) u) (.done (runClauses cl u) none)
  | [], u => ⟨3, _, rfl, _, rfl, _, rfl, rfl⟩
  | c :: r, u => by
    obtain ⟨n, hn⟩ := run_tail c r (run_clauses r) u
    have h : SRun body 2 (.exec (clauses (c :: r)) (.switchK .stop) u) (.exec c.stmt (.seq (.seq c.tail (clauses r)) (.switchK .stop)) u) := by
      refine ⟨_, rfl, ?_⟩
      unfold Clause.head
      cases c.label <;> exact ⟨_, rfl, rfl⟩
    exact ⟨_, srun_trans h hn⟩

theorem find_tail_case (v : Int) (c : Clause σ) (k : Cont σ) : findCase v c.tail k = none := by
  unfold Clause.tail; split <;> rfl

theorem find_tail_default (c : Clause σ) (k : Cont σ) : findDefault c.tail k = none := by
  unfold Clause.tail; split <;> rfl

theorem find_clause (v : Int) (k : Cont σ) : ∀ cl : List (Clause σ), findCase v (clauses cl) k =
    match fromLabel (some v) cl with
    | [] => none
    | c :: r => some (c.stmt, .seq (.seq c.tail (clauses r)) k)
  | [] => rfl
  | c :: r => by
    have ih := find_clause v k r
    have e : findCase v (clauses (c :: r)) k = (findCase v c.head (.seq (.seq c.tail (clauses r)) k)).or
        ((findCase v c.tail (.seq (clauses r) k)).or (findCase v (clauses r) k)) := rfl
    rw [e, find_tail_case, Option.none_or]
    by_cases h : c.label = some v
    · have : fromLabel (some v) (c :: r) = c :: r := by simp [fromLabel, h]
      rw [this]
      simp [Clause.head, h, findCase]
    · have : fromLabel (some v) (c :: r) = fromLabel (some v) r := by simp [fromLabel, h]
      rw [this, ih]
      have : findCase v c.head (.seq (.seq c.tail (clauses r)) k) = none := by
        unfold Clause.head
        cases hc : c.label with
        | none => rfl
        | some n =>
          have hn : ¬ n = v := fun e => h (by rw [hc, e])
          simp only [findCase, if_neg hn]; rfl
      rw [this, Option.none_or]

theorem find_clause_default (k : Cont σ) : ∀ cl : List (Clause σ), findDefault (clauses cl) k =
    match fromLabel none cl with
    | [] => none
    | c :: r => some (c.stmt, .seq (.seq c.tail (clauses r)) k)
  | [] => rfl
  | c :: r => by
    have ih := find_clause_default k r
    have e : findDefault (clauses (c :: r)) k = (findDefault c.head (.seq (.seq c.tail (clauses r)) k)).or
        ((findDefault c.tail (.seq (clauses r) k)).or (findDefault (clauses r) k)) := rfl
    rw [e, find_tail_default, Option.none_or]
    by_cases h : c.label = none
    · have : fromLabel none (c :: r) = c :: r := by simp [fromLabel, h]
      rw [this]
      simp [Clause.head, h, findDefault]
    · have : fromLabel none (c :: r) = fromLabel none r := by simp [fromLabel, h]
      rw [this, ih]
      have : findDefault c.head (.seq (.seq c.tail (clauses r)) k) = none := by
        unfold Clause.head
        cases hc : c.label with
        | none => exact absurd hc h
        | some n => rfl
      rw [this, Option.none_or]

theorem from_empty {l : Option Int} {cl : List (Clause σ)} : fromLabel l cl = [] ↔ ¬ ∃ c ∈ cl, c.label = l := by
  unfold fromLabel
  induction cl with
  | nil => simp
  | cons c r ih =>
    by_cases h : c.label = l
    · simp [h]
    · simp only [ne_eq, h, not_false_eq_true, decide_true, List.dropWhile_cons_of_pos] at ih ⊢
      rw [ih]; simp [h]

/-- The abstract machine on such a switch. -/
theorem clauses_ends (e : Expr σ) (cl : List (Clause σ)) (u : St σ) :
    Ends (.switch e (clauses cl)) u (runClauses (select (e.eval u).2 cl) (e.eval u).1) none := by
  have key : ∃ n, SRun (.switch e (clauses cl)) n (switchTo (e.eval u).2 (clauses cl) .stop (e.eval u).1)
      (.done (runClauses (select (e.eval u).2 cl) (e.eval u).1) none) := by
    unfold switchTo
    rw [find_clause, find_clause_default]
    by_cases h : ∃ c ∈ cl, c.label = some (e.eval u).2
    · rw [select, if_pos h]
      cases hf : fromLabel (some (e.eval u).2) cl with
      | nil => exact absurd h (from_empty.1 hf)
      | cons c r => exact run_tail c r (run_clauses r) _
    · rw [select, if_neg h, from_empty.2 h]
      cases hf : fromLabel none cl with
      | nil => exact ⟨1, _, rfl, rfl⟩
      | cons c r => exact run_tail c r (run_clauses r) _
  obtain ⟨n, hn⟩ := key
  exact ⟨n + 1, _, rfl, hn⟩

theorem clauses_wf (cl : List (Clause σ)) : (clauses cl).wf (fun _ => True) true false := by
  induction cl with
  | nil => trivial
  | cons c r ih =>
    refine ⟨?_, ?_, ih⟩
    · unfold Clause.head; cases c.label <;> trivial
    · unfold Clause.tail; split <;> trivial

def isDefault (c : Clause σ) : Bool := c.label.isNone

theorem clauses_build (brk cnt : Option Nat) : ∀ (cl : List (Clause σ)) (b : B σ) (p : Nat), b.inSwitch = true → b.labels = [] →
    (cl.filter isDefault).length + (if b.dflt.isSome then 1 else 0) ≤ 1 →
    ∃ r, b.stmt brk cnt p (clauses cl) = some r ∧ r.1.labels = []
  | [], b, p, _, hl, _ => ⟨(b, p), rfl, hl⟩
  | c :: r, b, p, hs, hl, hd => by
    obtain ⟨b1, p1, e1, s1, l1, d1⟩ : ∃ b1 p1, b.stmt brk cnt p c.head = some (b1, p1) ∧ b1.inSwitch = true ∧ b1.labels = [] ∧
        (r.filter isDefault).length + (if b1.dflt.isSome then 1 else 0) ≤ 1 := by
      cases hc : c.label with
      | some n =>
        refine ⟨((({ b.new with cases := b.cases ++ [(n, b.n)] }).goto p b.n).act b.n (.user true c.act)), b.n, ?_, hs, hl, ?_⟩
        · simp only [Clause.head, hc, B.stmt, hs, if_true, Clause.stmt]; rfl
        have : (List.filter isDefault (c :: r)) = r.filter isDefault := by simp [isDefault, hc]
        rw [this] at hd
        exact hd
      | none =>
        have : (List.filter isDefault (c :: r)) = c :: r.filter isDefault := by simp [isDefault, hc]
        rw [this, List.length_cons] at hd
        have hn : b.dflt.isSome = false := by
          cases h : b.dflt.isSome with
          | false => rfl
          | true => rw [h] at hd; simp at hd
        refine ⟨({ b.new.goto p b.n with dflt := some b.n }).act b.n (.user true c.act), b.n, ?_, hs, hl, ?_⟩
        · simp only [Clause.head, hc, B.stmt, hs, if_true, hn, Clause.stmt, Bool.false_eq_true, if_false]; rfl
        show (r.filter isDefault).length + 1 ≤ 1
        omega
    obtain ⟨b2, p2, e2, s2, l2, d2⟩ : ∃ b2 p2, b1.stmt brk cnt p1 c.tail = some (b2, p2) ∧ b2.inSwitch = true ∧ b2.labels = [] ∧
        b2.dflt = b1.dflt := by
      unfold Clause.tail
      cases c.brk
      · exact ⟨b1, p1, rfl, s1, l1, rfl⟩
      · exact ⟨_, _, rfl, s1, l1, rfl⟩
    obtain ⟨x, e3, l3⟩ := clauses_build brk cnt r b2 p2 s2 l2 (by rw [d2]; exact d1)
    exact ⟨x, by simp only [clauses, B.stmt, e1, e2, e3], l3⟩

theorem chain_labels (v : V σ) : ∀ (cs : List (Int × Nat)) (b : B σ) (m : Nat), (b.chain m v cs).1.labels = b.labels
  | [], _, _ => rfl
  | (n, c) :: r, b, m => chain_labels v r _ _

/-- Such a switch is accepted. -/
theorem switch_build (e : Expr σ) (cl : List (Clause σ)) (h : (cl.filter isDefault).length ≤ 1) : ∃ b, build (.switch e (clauses cl)) = some b := by
  obtain ⟨x, e1, l1⟩ := clauses_build (some 2) none cl
    ({ ((({} : B σ).new.new.new.expr 0 e).1.eval (({} : B σ).new.new.new.expr 0 e).2.1 (({} : B σ).new.new.new.expr 0 e).2.2).1 with
      inSwitch := true, cases := [], dflt := none }) 1 rfl (by
        show ((({} : B σ).new.new.new.expr 0 e).1.eval _ _).1.labels = []
        rw [(rest_eq (eval_rest _ _ _)).1, (rest_eq (expr_rest e _ _)).1]; rfl) (by simpa using h)
  have hst : ({} : B σ).new.stmt none none 0 (.switch e (clauses cl)) = some ({
      ((x.1.goto x.2 2).chain (({} : B σ).new.new.new.expr 0 e).2.1 ((({} : B σ).new.new.new.expr 0 e).1.eval (({} : B σ).new.new.new.expr 0 e).2.1
        (({} : B σ).new.new.new.expr 0 e).2.2).2 x.1.cases).1.goto ((x.1.goto x.2 2).chain (({} : B σ).new.new.new.expr 0 e).2.1
        ((({} : B σ).new.new.new.expr 0 e).1.eval (({} : B σ).new.new.new.expr 0 e).2.1
        (({} : B σ).new.new.new.expr 0 e).2.2).2 x.1.cases).2 (x.1.dflt.getD 2) with
      inSwitch := ((({} : B σ).new.new.new.expr 0 e).1.eval (({} : B σ).new.new.new.expr 0 e).2.1 (({} : B σ).new.new.new.expr 0 e).2.2).1.inSwitch,
      cases := ((({} : B σ).new.new.new.expr 0 e).1.eval (({} : B σ).new.new.new.expr 0 e).2.1 (({} : B σ).new.new.new.expr 0 e).2.2).1.cases,
      dflt := ((({} : B σ).new.new.new.expr 0 e).1.eval (({} : B σ).new.new.new.expr 0 e).2.1 (({} : B σ).new.new.new.expr 0 e).2.2).1.dflt }, 2) := by
    simp only [B.stmt]
    rw [show ({} : B σ).new.n = 1 from rfl, e1]
  obtain ⟨r, hr, hl⟩ : ∃ r, ({} : B σ).new.stmt none none 0 (.switch e (clauses cl)) = some r ∧ r.1.labels = [] := by
    refine ⟨_, hst, ?_⟩
    show (B.labels ((x.1.goto x.2 2).chain _ _ _).1) = []
    rw [chain_labels]; exact l1
  refine ⟨r.1, ?_⟩
  unfold build
  rw [hr]
  simp [hl]

end Verif.Cfg
