import Verif.Lval.Lemmas

/-!
# C95: only lvalues are assigned to

In full: an assignment is accepted if and only if its left operand is a modifiable lvalue, an
lvalue whose type is not an array and not `const`; everything else is diagnosed.

Proved: lvalues are not refused (`C95_lvalue_partial`, `C95_incr_partial`), and expressions that are not lvalues
are refused with the message, unless they are of the forms `Plain` leaves out
(`C95_diagnosed_partial`).  For each of these forms there is one that is accepted, and so are
assignments to constant objects (theorems `_violated`).
-/

namespace Verif.Lval

/-- The types of members. -/
abbrev Env.types (e : Env) : Nat → Nat → Option Ty := fun n k => (e.member n k).map (·.1)

theorem rvalue_bare {e : Env} {v w : V} {t u : Ty} (hv : Ok v) (ht : v.ty.bare = t)
    (hp : Points t u) (h : rvalue e v = .ok w) : w.ty.bare = .ptr u false := by
  cases hp with
  | ptr u c =>
    cases tv : v.ty <;> simp [tv, Ty.bare] at ht
    obtain ⟨rfl, rfl⟩ := ht
    have hf : v.field = none := by
      have := hv.field
      simpa [tv, Ty.isNum] using this
    simp only [rvalue, tv, hf] at h
    simp at h
    subst h
    simp [tv, Ty.bare]
  | arr u =>
    cases tv : v.ty <;> simp [tv, Ty.bare] at ht
    subst ht
    simp only [rvalue, tv, addr] at h
    by_cases hf : v.field.isSome = true
    · rw [if_pos hf] at h; cases h
    rw [if_neg hf] at h
    cases hk : v.kind <;> simp only [hk] at h
    · cases h
    · split_ifs at h
      cases h; rfl
    · split_ifs at h
    · cases hs : v.sym <;> simp only [hs] at h
      · cases h; rfl
      · split_ifs at h <;> cases h <;> rfl

theorem deref_bare {e : Env} {v w : V} {t u : Ty} (hv : Ok v) (ht : v.ty.bare = t)
    (hp : Points t u) (h : deref e v = .ok w) : w.ty.bare = u := by
  obtain ⟨r, hr, h⟩ := bind_ok h
  have hb := rvalue_bare hv ht hp hr
  cases tr : r.ty <;> simp [tr, Ty.bare] at hb
  subst hb
  simp only [tr] at h
  cases hk : r.kind <;> simp only [hk] at h
  · cases h; rfl
  · split_ifs at h <;> cases h <;> rfl
  · cases h; rfl
  · cases h; rfl

theorem addSub_ptr {e : Env} {o : Nat} {l r : V} {x : X} {u : Ty} (hl : l.ty.bare = .ptr u false)
    (nr : r.ty.isNum = true) (h : addSub e o l r = .ok x) : (eval x).ty.bare = .ptr u false := by
  cases tl : l.ty <;> simp [tl, Ty.bare] at hl
  cases tr : r.ty <;> simp [tr, Ty.isNum] at nr
  simp only [addSub, tl, tr] at h
  split_ifs at h <;> cases h <;> simp [eval, create, direct, Ty.bare, tl, hl]

theorem add_ptr {e : Env} {l r : V} {x : X} {t u : Ty} (okl : Ok l) (hl : l.ty.bare = t)
    (hp : Points t u) (nr : r.ty.isNum = true) (h : add e l r = .ok x) :
    (eval x).ty.bare = .ptr u false := by
  obtain ⟨l', h1, h⟩ := bind_ok h
  obtain ⟨r', h2, h⟩ := bind_ok h
  have hb := rvalue_bare okl hl hp h1
  have n2 := rvalue_num nr h2
  have p2 : r'.ty.isPtr = false := by cases hh : r'.ty <;> simp_all [Ty.isNum, Ty.isPtr]
  simp only [p2] at h
  exact addSub_ptr hb n2 (by simpa using h)

theorem member_bare {e : Env} {v w : V} {n k : Nat} {t : Ty} (hv : v.ty.bare = .rcd n false)
    (hm : e.types n k = some t) (h : member e v k = .ok w) : w.ty = t := by
  cases tv : v.ty <;> simp [tv, Ty.bare] at hv
  subst hv
  rename_i n c
  simp only [member, tv] at h
  cases q : e.member n k with
  | none => simp [q] at h
  | some p =>
    obtain ⟨t', off, f⟩ := p
    simp only [q] at h
    cases h
    simpa [Env.types, q] using hm

theorem bare_num {t : Ty} (h : t.isNum = true) : t.bare = number := by
  cases t <;> simp_all [Ty.bare, Ty.isNum]

theorem typed {e : Env} (he : e.Fields) {a : E} {t : Ty} (ht : HasTy e.types a t) :
    ∀ {x : X}, NoCast a → value e a = .ok x → (eval x).ty.bare = t := by
  induction ht with
  | obj t => intro x _ h; cases h; rfl
  | num k v => intro x _ h; cases h; rfl
  | call t => intro x _ h; cases h; rfl
  | deref ha hp ih =>
    intro x n h
    obtain ⟨y, h1, h⟩ := bind_ok h
    obtain ⟨w, h2, h⟩ := bind_ok h
    cases h
    exact deref_bare (value_ok' he h1 n) (ih n h1) hp h2
  | index ha hp hi ih1 ih2 =>
    intro x n h
    obtain ⟨y, h1, h⟩ := bind_ok h
    obtain ⟨z, h2, h⟩ := bind_ok h
    obtain ⟨s, h3, h⟩ := bind_ok h
    obtain ⟨w, h4, h⟩ := bind_ok h
    cases h
    have := add_ptr (value_ok' he h1 n.1) (ih1 n.1 h1) hp (isNum_bare (ih2 n.2 h2)) h3
    exact deref_bare (add_ok (value_ok' he h1 n.1) (value_ok' he h2 n.2) h3) this (.ptr _ _) h4
  | member ha hm ih =>
    intro x n h
    obtain ⟨y, h1, h⟩ := bind_ok h
    obtain ⟨w, h2, h⟩ := bind_ok h
    cases h
    exact congrArg Ty.bare (member_bare (ih n h1) hm h2)
  | arrow ha hp hm ih =>
    intro x n h
    obtain ⟨y, h1, h⟩ := bind_ok h
    obtain ⟨v, h2, h⟩ := bind_ok h
    obtain ⟨w, h3, h⟩ := bind_ok h
    cases h
    exact congrArg Ty.bare (member_bare (deref_bare (value_ok' he h1 n) (ih n h1) hp h2) hm h3)
  | plus ha ih =>
    intro x n h
    obtain ⟨y, h1, h⟩ := bind_ok h
    obtain ⟨t, q, f⟩ := plus_fresh (value_ok' he h1 n) h
    rw [f.2.2]; exact bare_num q
  | neg ha ih =>
    intro x n h
    obtain ⟨y, h1, h⟩ := bind_ok h
    obtain ⟨t, q, f⟩ := neg_fresh (value_ok' he h1 n) h
    rw [f.2.2]; exact bare_num q
  | add ha hb ih1 ih2 =>
    intro x n h
    obtain ⟨y, h1, h⟩ := bind_ok h
    obtain ⟨z, h2, h⟩ := bind_ok h
    obtain ⟨t, q, f⟩ := add_num (value_ok' he h1 n.1) (value_ok' he h2 n.2)
      (isNum_bare (ih1 n.1 h1)) (isNum_bare (ih2 n.2 h2)) h
    rw [f.2.2]; exact bare_num q
  | sub ha hb ih1 ih2 =>
    intro x n h
    obtain ⟨y, h1, h⟩ := bind_ok h
    obtain ⟨z, h2, h⟩ := bind_ok h
    obtain ⟨t, q, f⟩ := sub_num (value_ok' he h1 n.1) (value_ok' he h2 n.2)
      (isNum_bare (ih1 n.1 h1)) (isNum_bare (ih2 n.2 h2)) h
    rw [f.2.2]; exact bare_num q
  | other ha hb ih1 ih2 =>
    intro x n h
    obtain ⟨y, h1, h⟩ := bind_ok h
    obtain ⟨z, h2, h⟩ := bind_ok h
    obtain ⟨t, q, f⟩ := other_fresh h
    rw [f.2.2]; exact bare_num q
  | assign ha ih =>
    intro x n h
    obtain ⟨y, h1, h⟩ := bind_ok h
    obtain ⟨z, h2, h⟩ := bind_ok h
    obtain ⟨w, h3, h⟩ := bind_ok h
    cases h
    simp only [eval]
    rw [(assign_res (value_ok' he h1 n.1) h3).2.2.2]
    exact ih n.1 h1

theorem lvalue_flag {e : Env} {a : E} (hl : Lvalue a) : ∀ {x : X}, value e a = .ok x →
    (eval x).lv = true := by
  induction hl with
  | obj t => intro x h; cases h; rfl
  | deref a =>
    intro x h
    obtain ⟨y, h1, h⟩ := bind_ok h
    obtain ⟨w, h2, h⟩ := bind_ok h
    cases h
    exact deref_lv h2
  | index a i =>
    intro x h
    obtain ⟨y, h1, h⟩ := bind_ok h
    obtain ⟨z, h2, h⟩ := bind_ok h
    obtain ⟨s, h3, h⟩ := bind_ok h
    obtain ⟨w, h4, h⟩ := bind_ok h
    cases h
    exact deref_lv h4
  | arrow a m =>
    intro x h
    obtain ⟨y, h1, h⟩ := bind_ok h
    obtain ⟨v, h2, h⟩ := bind_ok h
    obtain ⟨w, h3, h⟩ := bind_ok h
    cases h
    have hv := deref_lv h2
    cases tv : v.ty <;> simp only [member, tv] at h3 <;> try (cases h3; done)
    split at h3
    · cases h3; exact hv
    · cases h3
  | member m ha ih =>
    intro x h
    obtain ⟨y, h1, h⟩ := bind_ok h
    obtain ⟨w, h2, h⟩ := bind_ok h
    cases h
    have hv := ih h1
    generalize eval y = v at hv h2
    cases tv : v.ty <;> simp only [member, tv] at h2 <;> try (cases h2; done)
    split at h2
    · cases h2; exact hv
    · cases h2

theorem flag_lvalue {e : Env} (he : e.Fields) {a : E} (hp : Plain e.types a) :
    ∀ {x : X}, NoCast a → value e a = .ok x → (eval x).lv = true → Lvalue a := by
  induction hp with
  | obj t => intros; exact .obj t
  | deref a => intros; exact .deref a
  | index a i => intros; exact .index a i
  | arrow a k => intros; exact .arrow a k
  | num k v => intro x n h l; cases h; cases l
  | call t => intro x n h l; cases h; cases l
  | member k hp ih =>
    intro x n h l
    obtain ⟨y, h1, h⟩ := bind_ok h
    obtain ⟨w, h2, h⟩ := bind_ok h
    cases h
    refine .member k (ih n h1 ?_)
    generalize eval y = v at h2
    cases tv : v.ty <;> simp only [member, tv] at h2 <;> try (cases h2; done)
    split at h2
    · cases h2; exact l
    · cases h2
  | plus a =>
    intro x n h l
    obtain ⟨y, h1, h⟩ := bind_ok h
    obtain ⟨t, q, f⟩ := plus_fresh (value_ok' he h1 n) h
    simp [f.2.1] at l
  | neg a =>
    intro x n h l
    obtain ⟨y, h1, h⟩ := bind_ok h
    obtain ⟨t, q, f⟩ := neg_fresh (value_ok' he h1 n) h
    simp [f.2.1] at l
  | other o a b =>
    intro x n h l
    obtain ⟨y, h1, h⟩ := bind_ok h
    obtain ⟨z, h2, h⟩ := bind_ok h
    obtain ⟨t, q, f⟩ := other_fresh h
    simp [f.2.1] at l
  | assign a b =>
    intro x n h l
    obtain ⟨y, h1, h⟩ := bind_ok h
    obtain ⟨z, h2, h⟩ := bind_ok h
    obtain ⟨w, h3, h⟩ := bind_ok h
    cases h
    simp [eval, (assign_res (value_ok' he h1 n.1) h3).2.1] at l
  | incr a =>
    intro x n h l
    obtain ⟨y, h1, h⟩ := bind_ok h
    obtain ⟨z, h2, h⟩ := bind_ok h
    obtain ⟨w, h3, h⟩ := bind_ok h
    cases h
    simp [eval, (assign_res (value_ok' he h1 n) h3).2.1] at l
  | postIncr a =>
    intro x n h l
    obtain ⟨y, h1, h⟩ := bind_ok h
    obtain ⟨o, h2, h⟩ := bind_ok h
    obtain ⟨w, h3, h⟩ := bind_ok h
    obtain ⟨s, h4, h⟩ := bind_ok h
    obtain ⟨u, h5, h⟩ := bind_ok h
    cases h
    simp [eval, (assign_res (ok_create _) h3).2.1] at l
  | add ha hb =>
    intro x n h l
    obtain ⟨y, h1, h⟩ := bind_ok h
    obtain ⟨z, h2, h⟩ := bind_ok h
    obtain ⟨t, q, f⟩ := add_num (value_ok' he h1 n.1) (value_ok' he h2 n.2)
      (isNum_bare (typed he ha n.1 h1)) (isNum_bare (typed he hb n.2 h2)) h
    simp [f.2.1] at l
  | sub ha hb =>
    intro x n h l
    obtain ⟨y, h1, h⟩ := bind_ok h
    obtain ⟨z, h2, h⟩ := bind_ok h
    obtain ⟨t, q, f⟩ := sub_num (value_ok' he h1 n.1) (value_ok' he h2 n.2)
      (isNum_bare (typed he ha n.1 h1)) (isNum_bare (typed he hb n.2 h2)) h
    simp [f.2.1] at l

/-! ## The property -/

/-- No lvalue is refused as not being one. -/
theorem C95_lvalue_partial {e : Env} {a b : E} {x y : X} (hl : Lvalue a)
    (ha : value e a = .ok x) (hb : value e b = .ok y) :
    value e (.assign a b) ≠ .error .notLvalue := by
  have hf := lvalue_flag hl ha
  simp only [value, ha, hb, bind, Except.bind, assign, hf]
  simp only [not_true_eq_false, if_false]
  split_ifs
  · simp
  · cases hp : prepare e y (eval x).ty with
    | ok o => cases o <;> simp
    | error s =>
      have : s ≠ .notLvalue := prepare_stop hp
      simpa using this

/-- The same for `++`, where the sum can be computed. -/
theorem C95_incr_partial {e : Env} {a : E} {x s : X} (hl : Lvalue a)
    (ha : value e a = .ok x) (hs : value e (.add a (.num e.int 1)) = .ok s) :
    value e (.incr a) ≠ .error .notLvalue := by
  have hf := lvalue_flag hl ha
  have hs : add e (eval x) (imm (.num e.int false) 1) = .ok s := by
    simp only [value, ha, bind, Except.bind] at hs
    exact hs
  simp only [value, ha, hs, bind, Except.bind, assign, hf]
  simp only [not_true_eq_false, if_false]
  split_ifs
  · simp
  · cases hp : prepare e s (eval x).ty with
    | ok o => cases o <;> simp
    | error s =>
      have : s ≠ .notLvalue := prepare_stop hp
      simpa using this

/-- What is not an lvalue is refused, with the message that says so, as far as `Plain` goes: by
`=` and by `++` in front or behind. -/
theorem C95_diagnosed_partial {e : Env} (he : e.Fields) {a : E} (hp : Plain e.types a)
    (hc : NoCast a) (hl : ¬ Lvalue a) :
    (∀ b, (value e (.assign a b)).toOption = none) ∧ (value e (.incr a)).toOption = none ∧
      (value e (.postIncr a)).toOption = none ∧
      ∀ b x y, value e a = .ok x → value e b = .ok y →
        value e (.assign a b) = .error .notLvalue := by
  have key : ∀ x, value e a = .ok x → (eval x).lv = false := fun x h => by
    by_contra q
    exact hl (flag_lvalue he hp hc h (by simpa using q))
  have no : ∀ x r, value e a = .ok x → assign e (eval x) r = .error .notLvalue := fun x r h => by
    simp [assign, key x h]
  refine ⟨fun b => ?_, ?_, ?_, fun b x y h1 h2 => ?_⟩
  · cases hv : value e (.assign a b) with
    | error => rfl
    | ok z =>
      obtain ⟨x, h1, h⟩ := bind_ok hv
      obtain ⟨y, h2, h⟩ := bind_ok h
      obtain ⟨w, h3, h⟩ := bind_ok h
      rw [no x y h1] at h3; cases h3
  · cases hv : value e (.incr a) with
    | error => rfl
    | ok z =>
      obtain ⟨x, h1, h⟩ := bind_ok hv
      obtain ⟨y, h2, h⟩ := bind_ok h
      obtain ⟨w, h3, h⟩ := bind_ok h
      rw [no x y h1] at h3; cases h3
  · cases hv : value e (.postIncr a) with
    | error => rfl
    | ok z =>
      obtain ⟨x, h1, h⟩ := bind_ok hv
      obtain ⟨o, h2, h⟩ := bind_ok h
      obtain ⟨w, h3, h⟩ := bind_ok h
      obtain ⟨s, h4, h⟩ := bind_ok h
      obtain ⟨u, h5, h⟩ := bind_ok h
      rw [no x s h1] at h5; cases h5
  · simp [value, h1, h2, bind, Except.bind, no x y h1]

/-! ## A target -/

/-- Types 0, 1 and 2 are char, int and long; record 0 has an int, a bit-field and an array. -/
def env0 : Env where
  usual j k := max 1 (max j k)
  promote k := max 1 k
  isInt _ := true
  size
    | .num k _ => if k = 0 then 1 else 4 * k
    | _ => 8
  int := 1
  conv _ _ v := v
  fold o _ a b := if o = 0 then some (a + b) else if o = 1 then some (a - b) else some (a * b)
  member n k := if n = 0 then
      if k = 0 then some (.num 1 false, 0, none)
      else if k = 1 then some (.num 1 false, 4, some true)
      else if k = 2 then some (.arr (.num 0 false), 8, none)
      else none
    else none

theorem env0_fields : env0.Fields := by
  intro n k t off b h
  simp only [env0] at h
  split_ifs at h <;> simp at h
  obtain ⟨rfl, _⟩ := h
  rfl

abbrev intT : Ty := .num 1 false
abbrev vx : E := .obj intT
abbrev vp : E := .obj (.ptr intT false)
abbrev va : E := .obj (.arr intT)
abbrev vs : E := .obj (.rcd 0 false)
abbrev vq : E := .obj (.ptr (.rcd 0 false) false)
abbrev five : E := .num 1 5

def accepted (a b : E) : Bool := (value env0 (.assign a b)).toOption.isSome

-- x = 5, *p = 5, a[5] = 5, s.m = 5, q->f = 5 and (s = s2).m = 5, x + 5 = 5, f().m = 5
example : accepted vx five = true ∧ accepted (.deref vp) five = true ∧
    accepted (.index va five) five = true ∧ accepted (.member vs 0) five = true ∧
    accepted (.arrow vq 1) five = true ∧ accepted (.member (.assign vs vs) 0) five = false ∧
    accepted (.add vx five) five = false ∧
    accepted (.member (.call (.rcd 0 false)) 0) five = false := by decide

example : value env0 (.assign (.member (.deref vq) 0) five) ≠ .error .notLvalue :=
  C95_lvalue_partial (.member 0 (.deref vq)) (x := .id _) (y := .id _) rfl rfl

example : value env0 (.incr (.index va five)) ≠ .error .notLvalue :=
  C95_incr_partial (.index va five) (x := .id _) (s := .op _) rfl rfl

-- p[5] + x = x
example : value env0 (.assign (.add (.index vp five) vx) vx) = .error .notLvalue :=
  (C95_diagnosed_partial env0_fields (.add (.index (.obj (.ptr intT false)) (.ptr number false) (.num _ _)) (.obj intT))
    ⟨⟨trivial, trivial⟩, trivial⟩ (fun h => by cases h)).2.2.2 vx (.op _) (.id _) rfl rfl

-- (s = s).m = 5
example : (value env0 (.assign (.member (.assign vs vs) 0) five)).toOption = none :=
  (C95_diagnosed_partial env0_fields (.member 0 (.assign vs vs)) ⟨trivial, trivial⟩
    (fun h => by cases h with | member _ h => cases h)).1 five

/-! ## Where it is violated -/

/-- `(int) x = 5` -/
theorem C95_cast_violated :
    ¬ Lvalue (.cast intT vx) ∧ (value env0 (.assign (.cast intT vx) five)).toOption.isSome = true :=
  ⟨fun h => (by cases h), by decide⟩

/-- `(x ? x : x) = 5` and, with a constant condition, `(5 ? x : x) = 5` -/
theorem C95_conditional_violated :
    (¬ Lvalue (.cond vx vx vx) ∧ (value env0 (.assign (.cond vx vx vx) five)).toOption.isSome = true) ∧
    ¬ Lvalue (.cond five vx vx) ∧
      (value env0 (.assign (.cond five vx vx) five)).toOption.isSome = true :=
  ⟨⟨fun h => (by cases h), by decide⟩, fun h => (by cases h), by decide⟩

/-- `(x, x) = 5` -/
theorem C95_comma_violated :
    ¬ Lvalue (.comma vx vx) ∧ (value env0 (.assign (.comma vx vx) five)).toOption.isSome = true :=
  ⟨fun h => (by cases h), by decide⟩

/-- `&x = p`, and `&*p = p`, which sets `p` -/
theorem C95_address_violated :
    (¬ Lvalue (.addr vx) ∧ (value env0 (.assign (.addr vx) vp)).toOption.isSome = true) ∧
    ¬ Lvalue (.addr (.deref vp)) ∧
      (value env0 (.assign (.addr (.deref vp)) vp)).toOption.isSome = true :=
  ⟨⟨fun h => (by cases h), by decide⟩, fun h => (by cases h), by decide⟩

/-- `p + 0 = p` and `a + 5 = p` -/
theorem C95_pointer_violated :
    (¬ Lvalue (.add vp (.num 1 0)) ∧
      (value env0 (.assign (.add vp (.num 1 0)) vp)).toOption.isSome = true) ∧
    ¬ Lvalue (.add va five) ∧ (value env0 (.assign (.add va five) vp)).toOption.isSome = true :=
  ⟨⟨fun h => (by cases h), by decide⟩, fun h => (by cases h), by decide⟩

/-- Assignments to objects that are `const` are accepted, in any environment and to any such
object of arithmetic type. -/
theorem C95_const_violated (e : Env) (k j : Nat) (v : Int) :
    (value e (.assign (.obj (.num k true)) (.num j v))).toOption.isSome = true := by
  simp [value, assign, bind, Except.bind, eval, direct, imm, prepare, prepared, rvalue,
    Except.map, Except.toOption]

/-- `& &x` and `a = a` for an array stop the compiler with a failing assertion. -/
theorem C95_crash_violated :
    value env0 (.addr (.addr vx)) = .error .crash ∧ value env0 (.assign va va) = .error .crash := by
  decide

/-- `5 ? s : s` is refused for structures. -/
theorem C95_record_violated : value env0 (.cond five vs vs) = .error .diagnosed := by decide

end Verif.Lval
