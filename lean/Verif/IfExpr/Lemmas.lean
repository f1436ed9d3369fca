import Verif.IfExpr.Arith
/-! # The `#if` parser follows the grammar on plain expressions -/
namespace Verif.IfExpr
open Spec Word

/-- `n` is the value of `e`. -/
def Rel (e : E) (n : Num) : Prop := eval e = some (val n) ∧ n.signed = signed e

def lev (expr : P) : Nat → P
  | 0 => primary expr
  | 1 => unary expr
  | 2 => multiplicative expr
  | 3 => additive expr
  | 4 => shift expr
  | 5 => relational expr
  | 6 => equality expr
  | 7 => bitAnd expr
  | 8 => bitXor expr
  | 9 => bitOr expr
  | 10 => logicalAnd expr
  | 11 => logicalOr expr
  | _ => fun ts => conditional expr (ts.length + 1) ts

def opsAt : Nat → List BinOp
  | 2 => [.mul, .div, .mod]
  | 3 => [.add, .sub]
  | 4 => [.shl, .shr]
  | 5 => [.lt, .gt, .le, .ge]
  | 6 => [.eq, .ne]
  | 7 => [.and]
  | 8 => [.xor]
  | 9 => [.or]
  | 10 => [.land]
  | 11 => [.lor]
  | _ => []

theorem mem_opsAt (op : BinOp) (k : Nat) : op ∈ opsAt k ↔ lvl op = k := by
  unfold opsAt
  split <;> cases op <;> simp_all [lvl] <;> omega

/-- The next token does not continue an expression of level `k`. -/
def Stop (k : Nat) : List PTok → Prop
  | .bin op :: _ => k < lvl op
  | .quest :: _ => k < 12
  | _ => True

theorem Stop.mono {k k' : Nat} {ts : List PTok} (h : Stop k ts) (hk : k' ≤ k) : Stop k' ts := by
  unfold Stop at *
  split at h <;> first | omega | trivial

theorem Gram.ne_nil {k ts e} (h : Gram k ts e) : ts ≠ [] := by
  induction h <;> simp_all

theorem loop_stop {sub : P} {k j : Nat} {v : Num} {rest : List PTok} (h : Stop k rest) (hj : 1 ≤ j) :
    loop sub (opsAt k) j v rest = .ok v rest := by
  obtain ⟨j, rfl⟩ : ∃ j', j = j' + 1 := ⟨j - 1, by omega⟩
  unfold loop
  unfold Stop at h
  split
  · rw [if_neg]
    rw [mem_opsAt]
    simp only at h
    omega
  · rfl

theorem tailR_stop {self : P} {k : Nat} {v : Num} {rest : List PTok} (h : Stop k rest) :
    tailR self (opsAt k) v rest = .ok v rest := by
  unfold tailR
  unfold Stop at h
  split
  · rw [if_neg]
    rw [mem_opsAt]
    simp only at h
    omega
  · rfl

def isClass (k : Nat) (e : E) : Bool := if k = 6 then isEquality e else isOr e

/-- Parsing a token list that denotes a value. -/
structure Good (k : Nat) (ts : List PTok) (e : E) (v : Num) : Prop where
  a : ∀ n, n ≥ ts.length → ∀ rest, Stop k rest → lev (expression n) k (ts ++ rest) = .ok v rest
  l : 2 ≤ k → k ≤ 5 → ∀ n, n ≥ ts.length → ∀ rest R, Stop (k - 1) rest →
    (∀ j, j ≥ rest.length + 1 → loop (lev (expression n) (k - 1)) (opsAt k) j v rest = R) →
    lev (expression n) k (ts ++ rest) = R
  r : (k = 7 ∨ k = 8 ∨ k = 10 ∨ k = 11) → ∀ n, n ≥ ts.length → ∀ rest R, Stop (k - 1) rest →
    (∀ j, j ≥ rest.length + 1 →
      tailR (rightRec (lev (expression n) (k - 1)) (opsAt k) j) (opsAt k) v rest = R) →
    ∀ j, j ≥ ts.length + rest.length + 1 →
      rightRec (lev (expression n) (k - 1)) (opsAt k) j (ts ++ rest) = R
  d : (k = 6 ∨ k = 9) → isClass k e = false → ∀ n, n ≥ ts.length → ∀ rest, Stop (k - 1) rest →
    lev (expression n) (k - 1) (ts ++ rest) = .ok v rest
  c : k = 12 → ∀ n, n ≥ ts.length → ∀ rest, Stop 12 rest → ∀ j, j ≥ ts.length + rest.length + 1 →
    conditional (expression n) j (ts ++ rest) = .ok v rest

theorem lev_left (expr : P) (k : Nat) (h : 2 ≤ k) (h' : k ≤ 5) :
    lev expr k = leftAssoc (lev expr (k - 1)) (opsAt k) := by
  have : k = 2 ∨ k = 3 ∨ k = 4 ∨ k = 5 := by omega
  rcases this with rfl | rfl | rfl | rfl <;> rfl

theorem lev_right (expr : P) (k : Nat) (h : k = 6 ∨ k = 7 ∨ k = 8 ∨ k = 10 ∨ k = 11) :
    lev expr k = fun ts => rightRec (lev expr (k - 1)) (opsAt k) (ts.length + 1) ts := by
  rcases h with rfl | rfl | rfl | rfl | rfl <;> rfl

/-- Build `Good` at a left associative level. -/
theorem Good.mkL {k ts e v} (hk : 2 ≤ k) (hk' : k ≤ 5)
    (l : ∀ n, n ≥ ts.length → ∀ rest R, Stop (k - 1) rest →
      (∀ j, j ≥ rest.length + 1 → loop (lev (expression n) (k - 1)) (opsAt k) j v rest = R) →
      lev (expression n) k (ts ++ rest) = R) : Good k ts e v where
  a n hn rest hs := l n hn rest _ (hs.mono (by omega)) (fun j hj => loop_stop hs (by omega))
  l _ _ := l
  r h := by omega
  d h := by omega
  c h := by omega

theorem Good.mkR {k ts e v} (hk : k = 7 ∨ k = 8 ∨ k = 10 ∨ k = 11)
    (r : ∀ n, n ≥ ts.length → ∀ rest R, Stop (k - 1) rest →
      (∀ j, j ≥ rest.length + 1 →
        tailR (rightRec (lev (expression n) (k - 1)) (opsAt k) j) (opsAt k) v rest = R) →
      ∀ j, j ≥ ts.length + rest.length + 1 →
        rightRec (lev (expression n) (k - 1)) (opsAt k) j (ts ++ rest) = R) : Good k ts e v where
  a n hn rest hs := by
    rw [lev_right _ k (by omega)]
    exact r n hn rest _ (hs.mono (by omega)) (fun j hj => tailR_stop hs) _ (by simp)
  l h := by omega
  r _ := r
  d h := by omega
  c h := by omega

/-- One level up. -/
theorem Good.up {k ts e v} (hk : k < 12) (hg : Gram k ts e) (h : Good k ts e v) :
    Good (k + 1) ts e v := by
  have hne : 1 ≤ ts.length := List.length_pos_iff.2 (Gram.ne_nil hg)
  by_cases k1 : k = 0
  · subst k1
    refine ⟨?_, by omega, by omega, by omega, by omega⟩
    intro n hn rest hs
    have := h.a n hn rest (hs.mono (by omega))
    simp only [lev] at this ⊢
    rw [← this]
    cases hg <;> rfl
  by_cases k2 : k ≤ 4
  · refine Good.mkL (by omega) (by omega) ?_
    intro n hn rest R hs hR
    rw [lev_left _ _ (by omega) (by omega)]
    unfold leftAssoc
    rw [show k + 1 - 1 = k by omega] at hs hR ⊢
    rw [h.a n hn rest hs]
    exact hR _ (by omega)
  by_cases k3 : k + 1 = 7 ∨ k + 1 = 8 ∨ k + 1 = 10 ∨ k + 1 = 11
  · refine Good.mkR k3 ?_
    intro n hn rest R hs hR j hj
    rw [show k + 1 - 1 = k by omega] at hs hR ⊢
    obtain ⟨j, rfl⟩ : ∃ j', j = j' + 1 := ⟨j - 1, by omega⟩
    rw [rightRec, h.a n hn rest hs]
    exact hR _ (by omega)
  by_cases k4 : k = 5
  · subst k4
    refine ⟨?_, by omega, by omega, ?_, by omega⟩
    · intro n hn rest hs
      rw [lev_right _ _ (by omega)]
      simp only [rightRec]
      rw [h.a n hn rest (hs.mono (by omega))]
      exact tailR_stop hs
    · intro _ _ n hn rest hs
      exact h.a n hn rest hs
  by_cases k5 : k = 8
  · subst k5
    refine ⟨?_, by omega, by omega, ?_, by omega⟩
    · intro n hn rest hs
      have := h.a n hn rest (hs.mono (by omega))
      simp only [lev, bitOr] at this ⊢
      rw [this]
      exact tailR_stop hs
    · intro _ _ n hn rest hs
      exact h.a n hn rest hs
  obtain rfl : k = 11 := by omega
  have hc : ∀ n, n ≥ ts.length → ∀ rest, Stop 12 rest → ∀ j, j ≥ ts.length + rest.length + 1 →
      conditional (expression n) j (ts ++ rest) = .ok v rest := by
    intro n hn rest hs j hj
    obtain ⟨j, rfl⟩ : ∃ j', j = j' + 1 := ⟨j - 1, by omega⟩
    have := h.a n hn rest (hs.mono (by omega))
    simp only [lev] at this
    rw [conditional, this]
    simp only [Res.bind]
    unfold Stop at hs
    split
    · simp at hs
    · rfl
  refine ⟨?_, by omega, by omega, by omega, fun _ => hc⟩
  intro n hn rest hs
  simp only [lev]
  exact hc n hn rest hs _ (by simp)

theorem assoc_tail (self : P) (op : BinOp) (hop : op = .and ∨ op = .xor ∨ op = .land ∨ op = .lor)
    (v1 v2 v12 : Num) (rest : List PTok) (h : ∀ rest, binop op v1 v2 rest = .ok v12 rest) :
    ((tailR self [op] v2 rest).bind fun r rest' => binop op v1 r rest') = tailR self [op] v12 rest := by
  have h0 := h []
  unfold tailR
  split
  · rename_i op' ts'
    split
    · rename_i hm
      simp only [List.mem_singleton] at hm
      subst hm
      cases self ts' with
      | ok n r =>
        rcases hop with rfl | rfl | rfl | rfl <;>
          simp only [binop, Res.bind, Res.ok.injEq, and_true] at h0 ⊢ <;> subst h0 <;>
          simp only [bothSigned, truth, Num.mk.injEq, true_and, Bool.and_assoc, BitVec.and_assoc,
            BitVec.xor_assoc, and_self]
        · by_cases a1 : v1.v = 0#64 <;> by_cases a2 : v2.v = 0#64 <;> by_cases a3 : n.v = 0#64 <;>
            simp [a1, a2, a3]
        · by_cases a1 : v1.v = 0#64 <;> by_cases a2 : v2.v = 0#64 <;> by_cases a3 : n.v = 0#64 <;>
            simp [a1, a2, a3]
      | _ => rfl
    · exact h _
  · exact h _

/-- A binary operator. -/
theorem Good.bin {op k ts1 ts2 e1 e2 v1 v2 v} (hl : lvl op = k + 1) (g2 : Gram k ts2 e2)
    (h1 : Good (k + 1) ts1 e1 v1) (h2 : Good k ts2 e2 v2)
    (hq : (op = .eq ∨ op = .ne) → isEquality e1 = false) (ho : op = .or → isOr e1 = false)
    (hv : ∀ rest, binop op v1 v2 rest = .ok v rest) :
    Good (k + 1) (ts1 ++ .bin op :: ts2) (.bin op e1 e2) v := by
  have hne : 1 ≤ ts2.length := List.length_pos_iff.2 (Gram.ne_nil g2)
  have hk : 1 ≤ k := by cases op <;> simp [lvl] at hl <;> omega
  have hop : op ∈ opsAt (k + 1) := (mem_opsAt _ _).2 hl
  have hst : ∀ rest, Stop k (.bin op :: rest) := by
    intro rest
    simp only [Stop]
    omega
  by_cases k2 : k ≤ 4
  · refine Good.mkL (by omega) (by omega) ?_
    intro n hn rest R hs hR
    simp only [List.length_append, List.length_cons] at hn
    rw [show k + 1 - 1 = k by omega] at hs hR
    rw [List.append_assoc, List.cons_append]
    refine h1.l (by omega) (by omega) n (by omega) _ R (hst _) ?_
    intro j hj
    simp only [List.length_append, List.length_cons] at hj
    obtain ⟨j, rfl⟩ : ∃ j', j = j' + 1 := ⟨j - 1, by omega⟩
    rw [loop]
    simp only [hop, if_true]
    rw [show k + 1 - 1 = k by omega, h2.a n (by omega) rest hs]
    simp only [Res.bind]
    rw [hv]
    simp only
    exact hR j (by omega)
  by_cases k3 : k + 1 = 7 ∨ k + 1 = 8 ∨ k + 1 = 10 ∨ k + 1 = 11
  · refine Good.mkR k3 ?_
    intro n hn rest R hs hR j hj
    simp only [List.length_append, List.length_cons] at hn hj
    rw [List.append_assoc, List.cons_append]
    refine h1.r k3 n (by omega) _ R (by rw [show k + 1 - 1 = k by omega]; exact hst _) ?_ j
      (by simp only [List.length_append, List.length_cons]; omega)
    intro j hj
    simp only [List.length_append, List.length_cons] at hj
    obtain ⟨j, rfl⟩ : ∃ j', j = j' + 1 := ⟨j - 1, by omega⟩
    rw [show k + 1 - 1 = k by omega] at hs hR ⊢
    rw [tailR]
    simp only [hop, if_true]
    rw [rightRec, h2.a n (by omega) rest hs]
    have hops : opsAt (k + 1) = [op] := by
      cases op <;> simp only [lvl] at hl <;> rw [← hl] <;> first | rfl | omega
    have hop' : op = .and ∨ op = .xor ∨ op = .land ∨ op = .lor := by
      cases op <;> simp only [lvl] at hl <;> first | omega | simp
    have := hR j (by omega)
    rw [← this, hops]
    exact assoc_tail _ op hop' v1 v2 v rest hv
  by_cases k4 : k = 5
  · subst k4
    have hop' : op = .eq ∨ op = .ne := by
      cases op <;> simp only [lvl] at hl <;> first | omega | simp
    refine ⟨?_, by omega, by omega, ?_, by omega⟩
    · intro n hn rest hs
      simp only [List.length_append, List.length_cons] at hn
      rw [lev_right _ _ (by omega)]
      simp only [rightRec]
      rw [List.append_assoc, List.cons_append,
        h1.d (by simp) (by simp [isClass, hq hop']) n (by omega) _ (hst _)]
      simp only [Res.bind, tailR, hop, if_true]
      obtain ⟨j, hj⟩ : ∃ j, (ts1 ++ .bin op :: (ts2 ++ rest)).length = j + 1 :=
        ⟨_, by simp only [List.length_append, List.length_cons]; rfl⟩
      rw [hj, rightRec, h2.a n (by omega) rest (hs.mono (by omega))]
      simp only [Res.bind]
      rw [tailR_stop hs]
      exact hv rest
    · intro _ hc
      rcases hop' with rfl | rfl <;> simp [isClass, isEquality] at hc
  obtain rfl : k = 8 := by cases op <;> simp only [lvl] at hl <;> omega
  have hop' : op = .or := by cases op <;> simp only [lvl] at hl <;> first | omega | rfl
  refine ⟨?_, by omega, by omega, ?_, by omega⟩
  · intro n hn rest hs
    simp only [List.length_append, List.length_cons] at hn
    have e1 := h1.d (by simp) (by simp [isClass, ho hop']) n (by omega) (.bin op :: (ts2 ++ rest)) (hst _)
    have e2 := h2.a n (by omega) rest (hs.mono (by omega))
    simp only [lev, bitOr, Nat.add_one_sub_one] at e1 e2 ⊢
    rw [List.append_assoc, List.cons_append, e1]
    simp only [Res.bind, tailR]
    rw [if_pos (by simp [hop']), e2]
    exact hv rest
  · intro _ hc
    subst hop'
    simp [isClass, isOr] at hc

/-- `preprocess_expression` on a conditional expression followed by `)` or `:`. -/
theorem Good.expr {ts e v} (h : Good 12 ts e v) {n : Nat} (hn : n ≥ ts.length + 1) {t : PTok}
    (ht : t = .rpar ∨ t = .colon) (rest : List PTok) :
    expression n (ts ++ t :: rest) = .ok v (t :: rest) := by
  obtain ⟨n, rfl⟩ : ∃ n', n = n' + 1 := ⟨n - 1, by omega⟩
  rw [expression, commaLoop]
  have := h.a n (by omega) (t :: rest) (by rcases ht with rfl | rfl <;> trivial)
  simp only [lev] at this
  rw [this]
  rcases ht with rfl | rfl <;> rfl

theorem Good.paren {ts e v} (h : Good 12 ts e v) : Good 0 (.lpar :: ts ++ [.rpar]) (.paren e) v := by
  refine ⟨?_, by omega, by omega, by omega, by omega⟩
  intro n hn rest hs
  simp only [List.cons_append, List.length_append, List.length_cons, List.length_nil] at hn
  simp only [lev, List.cons_append, List.append_assoc, List.nil_append, primary]
  rw [h.expr (by omega) (.inl rfl)]
  rfl

theorem Good.cond {ts1 ts2 ts3 a b c va vb vc} (ha : Good 11 ts1 a va) (hb : Good 12 ts2 b vb)
    (hc : Good 12 ts3 c vc) :
    Good 12 (ts1 ++ .quest :: (ts2 ++ .colon :: ts3)) (.cond a b c)
      ⟨bothSigned vb vc, if va.v ≠ 0 then vb.v else vc.v⟩ := by
  have key : ∀ n, n ≥ (ts1 ++ .quest :: (ts2 ++ .colon :: ts3)).length → ∀ rest, Stop 12 rest →
      ∀ j, j ≥ (ts1 ++ .quest :: (ts2 ++ .colon :: ts3)).length + rest.length + 1 →
      conditional (expression n) j (ts1 ++ .quest :: (ts2 ++ .colon :: ts3) ++ rest) =
        .ok ⟨bothSigned vb vc, if va.v ≠ 0 then vb.v else vc.v⟩ rest := by
    intro n hn rest hs j hj
    simp only [List.length_append, List.length_cons] at hn hj
    obtain ⟨j, rfl⟩ : ∃ j', j = j' + 1 := ⟨j - 1, by omega⟩
    simp only [List.append_assoc, List.cons_append]
    have e1 := ha.a n (by omega) (.quest :: (ts2 ++ .colon :: (ts3 ++ rest))) (by simp [Stop])
    simp only [lev] at e1
    rw [conditional, e1]
    simp only [Res.bind]
    rw [hb.expr (by omega) (.inr rfl)]
    simp only
    rw [hc.c rfl n (by omega) rest hs j (by omega)]
  refine ⟨?_, by omega, by omega, by omega, fun _ => key⟩
  intro n hn rest hs
  simp only [lev]
  exact key n hn rest hs _ (by simp only [List.length_append, List.length_cons]; omega)

theorem Good.unop {op ts e v v'} (h : Good 1 ts e v)
    (hv : ∀ expr rest', unary expr (unTok op :: rest') =
      (unary expr rest').bind fun n t => if n = v then .ok v' t else unary expr (unTok op :: rest')) :
    Good 1 (unTok op :: ts) (.un op e) v' := by
  refine ⟨?_, by omega, by omega, by omega, by omega⟩
  intro n hn rest hs
  simp only [List.length_cons] at hn
  have := h.a n (by omega) rest hs
  simp only [lev, List.cons_append] at this ⊢
  rw [hv, this]
  simp [Res.bind]

theorem plain_isSome (e : E) (h : Plain e) : (eval e).isSome := by
  induction e with
  | num => rfl
  | word => rfl
  | paren e ih => exact ih h
  | un op e ih => exact h.2.1
  | bin op l r ihl ihr => exact h.2.2.1
  | cond a b c iha ihb ihc =>
    obtain ⟨x, hx⟩ := Option.isSome_iff_exists.1 (iha h.1)
    obtain ⟨y, hy⟩ := Option.isSome_iff_exists.1 (ihb h.2.1)
    obtain ⟨z, hz⟩ := Option.isSome_iff_exists.1 (ihc h.2.2)
    simp only [eval, hx, hy, hz, Option.bind_some]
    split <;> rfl

theorem rel_bin {op : BinOp} {l r : E} {vl vr : Num} (hl : Rel l vl) (hr : Rel r vr)
    (h : Plain (.bin op l r)) :
    ∃ v, (∀ rest, binop op vl vr rest = .ok v rest) ∧ Rel (.bin op l r) v := by
  obtain ⟨_, _, hs, hsh, _, _⟩ := h
  by_cases hop : op = .land ∨ op = .lor
  · have z1 := val_zero vl
    have z2 := val_zero vr
    rcases hop with rfl | rfl
    · refine ⟨_, fun _ => rfl, ?_, rfl⟩
      rw [val_truth]
      simp only [eval, hl.1, hr.1, Option.bind_some, Option.map_some]
      by_cases a1 : vl.v = 0#64 <;> by_cases a2 : vr.v = 0#64 <;> simp [b2i, z1, z2, a1, a2]
    · refine ⟨_, fun _ => rfl, ?_, rfl⟩
      rw [val_truth]
      simp only [eval, hl.1, hr.1, Option.bind_some, Option.map_some]
      by_cases a1 : vl.v = 0#64 <;> by_cases a2 : vr.v = 0#64 <;> simp [b2i, z1, z2, a1, a2]
  · have ev : eval (.bin op l r) = binVal op vl.signed (val vl) vr.signed (val vr) := by
      cases op <;> simp_all [eval, hl.1, hr.1, hl.2, hr.2]
    rw [ev] at hs
    obtain ⟨z, hz⟩ := Option.isSome_iff_exists.1 hs
    have sh : (op = .shl ∨ op = .shr) → vl.signed = true → vr.signed = true := by
      rw [hl.2, hr.2]; exact hsh
    obtain ⟨n, h1, h2, h3⟩ := binop_correct op vl vr z sh hz
    refine ⟨n, h1, ?_, ?_⟩
    · rw [ev, hz, h2]
    · rw [h3, hl.2, hr.2]
      cases op <;> simp_all [signed, resSigned]

theorem main {k ts e} (h : Gram k ts e) : Plain e → ∃ v, Rel e v ∧ Good k ts e v := by
  induction h with
  | @num ty v =>
    intro _
    refine ⟨⟨decide (ty = .int ∨ ty = .long), v⟩, ⟨?_, rfl⟩, ?_⟩
    · simp [eval, val]
    · refine ⟨?_, by omega, by omega, by omega, by omega⟩
      intros; rfl
  | word =>
    intro _
    refine ⟨⟨true, 0⟩, ⟨rfl, rfl⟩, ?_⟩
    refine ⟨?_, by omega, by omega, by omega, by omega⟩
    intros; rfl
  | @paren ts e hg ih =>
    intro hp
    obtain ⟨v, h1, h2⟩ := ih hp
    exact ⟨v, h1, h2.paren⟩
  | @un op ts e hg ih =>
    intro hp
    obtain ⟨v, h1, h2⟩ := ih hp.1
    have hs := hp.2.1
    simp only [eval, h1.1, Option.bind_some] at hs
    cases op with
    | plus =>
      refine ⟨v, ⟨by simp [eval, h1.1, unVal], h1.2⟩, h2.unop ?_⟩
      intro expr rest'
      simp only [unTok, unary]
      cases unary expr rest' <;> simp [Res.bind]
    | minus =>
      obtain ⟨z, hz⟩ := Option.isSome_iff_exists.1 hs
      rw [← h1.2] at hz
      simp only [unVal] at hz
      cases hsg : v.signed with
      | true =>
        rw [hsg] at hz
        have e : - val v = - v.v.toInt := by simp [val, hsg]
        rw [e] at hz
        obtain ⟨_, e2⟩ := signedResult_fit _ _ hz
        refine ⟨⟨true, BitVec.ofInt 64 z⟩, ⟨?_, ?_⟩, h2.unop ?_⟩
        · simp only [eval, h1.1, Option.bind_some, ← h1.2, hsg, unVal, e, hz, e2]
        · simp [signed, ← h1.2, hsg]
        · intro expr rest'
          simp only [unTok, unary]
          cases unary expr rest' <;> simp [Res.bind]
          intro h
          subst h
          simp only [hsg, if_true]
          exact (signedResult_fit _ _ hz).1 _
      | false =>
        rw [hsg] at hz
        refine ⟨⟨false, - v.v⟩, ⟨?_, ?_⟩, h2.unop ?_⟩
        · simp only [eval, h1.1, Option.bind_some, ← h1.2, hsg, unVal]
          simp only [fit, val, hsg, Bool.false_eq_true, if_false, BitVec.toNat_neg]
          congr 1
          have := v.v.isLt
          omega
        · simp [signed, ← h1.2, hsg]
        · intro expr rest'
          simp only [unTok, unary]
          cases unary expr rest' <;> simp [Res.bind]
          intro h
          subst h
          simp [hsg]
    | compl =>
      refine ⟨⟨v.signed, ~~~ v.v⟩, ⟨?_, ?_⟩, h2.unop ?_⟩
      · simp only [eval, h1.1, Option.bind_some, ← h1.2, unVal]
        have a1 := toInt_cases v.v
        have a2 := toInt_cases (~~~ v.v)
        have a3 := v.v.isLt
        have a4 := BitVec.toNat_not (x := v.v)
        cases hsg : v.signed
        · simp only [fit, val, hsg, Bool.false_eq_true, if_false, a4]
          congr 1
          omega
        · simp only [fit, val, hsg, if_true]
          rw [if_pos (by omega)]
          congr 1
          omega
      · simp [signed, ← h1.2]
      · intro expr rest'
        simp only [unTok, unary]
        cases unary expr rest' <;> simp [Res.bind]
        intro h
        subst h
        simp
    | not =>
      have hsg := hp.2.2 rfl
      refine ⟨⟨v.signed, if v.v = 0 then 1 else 0⟩, ⟨?_, ?_⟩, h2.unop ?_⟩
      · simp only [eval, h1.1, Option.bind_some, unVal]
        have := val_zero v
        rw [h1.2, hsg]
        by_cases hv : v.v = 0
        · rw [this.2 hv, if_pos hv]; rfl
        · have hn : ¬ val v = 0 := by rw [this]; exact hv
          rw [if_neg hv]
          simp only [hn, decide_false]; rfl
      · rw [h1.2, hsg]; rfl
      · intro expr rest'
        simp only [unTok, unary]
        cases unary expr rest' <;> simp [Res.bind]
        intro h
        subst h
        simp
  | @up k ts e hk hg ih =>
    intro hp
    obtain ⟨v, h1, h2⟩ := ih hp
    exact ⟨v, h1, h2.up hk hg⟩
  | @bin op k ts1 ts2 e1 e2 hl g1 g2 ih1 ih2 =>
    intro hp
    obtain ⟨v1, r1, h1⟩ := ih1 hp.1
    obtain ⟨v2, r2, h2⟩ := ih2 hp.2.1
    obtain ⟨v, hb, hr⟩ := rel_bin r1 r2 hp
    exact ⟨v, hr, Good.bin hl g2 h1 h2 hp.2.2.2.2.1 hp.2.2.2.2.2 hb⟩
  | @cond ts1 ts2 ts3 a b c g1 g2 g3 ih1 ih2 ih3 =>
    intro hp
    obtain ⟨v1, r1, h1⟩ := ih1 hp.1
    obtain ⟨v2, r2, h2⟩ := ih2 hp.2.1
    obtain ⟨v3, r3, h3⟩ := ih3 hp.2.2
    refine ⟨_, ⟨?_, ?_⟩, h1.cond h2 h3⟩
    · simp only [eval, r1.1, r2.1, r3.1, Option.bind_some, ← r2.2, ← r3.2]
      have c2 := conv_val (v2.signed && v3.signed) v2 (by simp; tauto)
      have c3 := conv_val (v2.signed && v3.signed) v3 (by simp)
      have z := val_zero v1
      unfold bothSigned
      by_cases hz : v1.v = 0
      · rw [if_neg (by simpa using z.2 hz), if_neg (by simpa using hz), Option.map_some, c3]
        rfl
      · have hz' : ¬ val v1 = 0 := by rw [z]; exact hz
        rw [if_pos (by simpa using hz'), if_pos (by simpa using hz), Option.map_some, c2]
        rfl
    · simp [signed, bothSigned, r2.2, r3.2]

end Verif.IfExpr
