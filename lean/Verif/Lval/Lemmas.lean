import Verif.Lval.Spec

namespace Verif.Lval

/-- What holds of all variables where nothing is cast. -/
structure Ok (v : V) : Prop where
  adr : v.kind = .adr → v.ty.isPtr = true
  imm : v.kind = .imm → v.lv = false
  field : v.field.isSome = true → v.ty.isNum = true

/-- Bit-fields have integer type. -/
def Env.Fields (e : Env) : Prop := ∀ n k t off b, e.member n k = some (t, off, some b) → t.isNum = true

theorem ok_imm (t v) : Ok (imm t v) := ⟨by simp [imm], by simp [imm], by simp [imm]⟩

theorem ok_op (t) : Ok (eval (.op t)) :=
  ⟨by simp [eval, create, direct], by simp [eval, create, direct], by simp [eval, create, direct]⟩

theorem ok_create (t) : Ok (create t) :=
  ⟨by simp [create, direct], by simp [create, direct], by simp [create, direct]⟩

theorem isNum_bare {t : Ty} (h : t.bare = number) : t.isNum = true := by
  cases t <;> simp_all [Ty.bare, Ty.isNum]

theorem addr_ok {v w : V} (h : addr v = .ok w) : Ok w := by
  simp only [addr] at h
  by_cases hf : v.field.isSome = true
  · rw [if_pos hf] at h; cases h
  rw [if_neg hf] at h
  have hf' : v.field = none := by simpa using hf
  cases hk : v.kind <;> simp only [hk] at h
  · cases h
  · split_ifs at h
    cases h
    exact ⟨by simp [Ty.isPtr], by simp, by simp [hf']⟩
  · split_ifs at h
  · cases hs : v.sym <;> simp only [hs] at h
    · cases h
      exact ⟨by simp, by simp, by simp [hf']⟩
    · split_ifs at h
      · cases h; exact ok_op _
      · cases h
        exact ⟨by simp [direct], by simp [direct], by simp [direct]⟩

theorem rvalue_ok {e : Env} {v w : V} (hv : Ok v) (h : rvalue e v = .ok w) : Ok w := by
  simp only [rvalue] at h
  split at h
  · exact addr_ok h
  · split_ifs at h
    · cases h; exact ok_op _
    · cases h; exact hv

theorem deref_lv {e : Env} {v w : V} (h : deref e v = .ok w) : w.lv = true := by
  simp only [deref, bind, Except.bind] at h
  cases hr : rvalue e v with
  | error => simp [hr] at h
  | ok r =>
    simp only [hr] at h
    split at h
    · split at h
      · cases h; rfl
      · cases h; rfl
      · cases h; rfl
      · split_ifs at h <;> cases h <;> rfl
    · cases h

theorem deref_ok {e : Env} {v w : V} (hv : Ok v) (h : deref e v = .ok w) : Ok w := by
  simp only [deref, bind, Except.bind] at h
  cases hr : rvalue e v with
  | error => simp [hr] at h
  | ok r =>
    have hr' := rvalue_ok hv hr
    simp only [hr] at h
    split at h
    next t c ht =>
      have hn : r.field = none := by
        have := hr'.field
        simp only [ht, Ty.isNum] at this
        simpa using this
      split at h
      · cases h; exact ⟨by simp, by simp, by simp [hn]⟩
      · cases h; exact ⟨by simp, by simp, by simp [hn]⟩
      · cases h; exact ⟨by simp, by simp, by simp [eval, create, direct]⟩
      · split_ifs at h
        · cases h; exact ⟨by simp, by simp, by simp [eval, create, direct]⟩
        · cases h; exact ⟨by simp, by simp, by simp [hn]⟩
    · cases h

theorem convert_num {e : Env} {v : V} {t : Ty} (hv : Ok v) (h1 : v.ty.isNum = true)
    (h2 : t.isNum = true) :
    Ok (eval (convert e v t)) ∧ (eval (convert e v t)).kind ≠ .adr ∧
      (eval (convert e v t)).ty = t := by
  have hp : v.ty.isPtr = false := by cases h : v.ty <;> simp_all [Ty.isNum, Ty.isPtr]
  have hp' : t.isPtr = false := by cases t <;> simp_all [Ty.isNum, Ty.isPtr]
  simp only [convert, hp, hp']
  split_ifs with a b c
  · exact ⟨hv, fun k => by simp [hv.adr k] at hp, a⟩
  · exact ⟨ok_imm _ _, by simp [eval, imm], rfl⟩
  · simp at c
  · exact ⟨ok_op _, by simp [eval, create, direct], rfl⟩

/-- The result of an operation. -/
def Fresh (x : X) (t : Ty) : Prop := Ok (eval x) ∧ (eval x).lv = false ∧ (eval x).ty = t

theorem fresh_imm (t v) : Fresh (.id (imm t v)) t := ⟨ok_imm _ _, rfl, rfl⟩

theorem fresh_op (t) : Fresh (.op t) t := ⟨ok_op _, rfl, rfl⟩

theorem fresh_fold (t : Ty) (o : Option Int) :
    Fresh (match o with | some v => X.id (imm t v) | none => .op t) t := by
  cases o
  · exact fresh_op _
  · exact fresh_imm _ _

theorem addSub_num {e : Env} {o : Nat} {l r : V} {x : X} (hl : Ok l) (hr : Ok r)
    (nl : l.ty.isNum = true) (nr : r.ty.isNum = true) (h : addSub e o l r = .ok x) :
    ∃ t, t.isNum = true ∧ Fresh x t := by
  cases tl : l.ty <;> simp [tl, Ty.isNum] at nl
  cases tr : r.ty <;> simp [tr, Ty.isNum] at nr
  rename_i j c k d
  have h1 := convert_num (e := e) (t := .num (e.usual j k) false) hl (by simp [tl, Ty.isNum]) rfl
  have h2 := convert_num (e := e) (t := .num (e.usual j k) false) hr (by simp [tr, Ty.isNum]) rfl
  simp only [addSub, tl, tr] at h
  refine ⟨.num (e.usual j k) false, rfl, ?_⟩
  split_ifs at h with a b c
  · cases h; exact fresh_fold _ _
  · exact absurd b.1 h1.2.1
  · exact absurd c.2.2 h2.2.1
  · cases h; exact fresh_op _

theorem addSub_ok {e : Env} {o : Nat} {l r : V} {x : X} (hl : Ok l) (hr : Ok r)
    (h : addSub e o l r = .ok x) : Ok (eval x) := by
  by_cases n : l.ty.isNum = true ∧ r.ty.isNum = true
  · obtain ⟨t, _, f⟩ := addSub_num hl hr n.1 n.2 h
    exact f.1
  · cases tl : l.ty <;> cases tr : r.ty <;> simp only [addSub, tl, tr] at h <;>
      try (cases h; done)
    · simp [tl, tr, Ty.isNum] at n
    · have := hl.field
      have hf : l.field = none := by simpa [tl, Ty.isNum] using this
      split_ifs at h
      · cases h; exact ⟨by simp [eval, tl, Ty.isPtr], fun k => hl.imm k, by simp [eval, hf]⟩
      · cases h; exact ⟨by simp [eval, tl, Ty.isPtr], fun k => hl.imm k, by simp [eval, hf]⟩
      · cases h; exact hl
      · cases h; exact ok_op _
    · split_ifs at h
      cases h; exact ok_op _

theorem other_fresh {e : Env} {o : Nat} {l r : V} {x : X} (h : other e o l r = .ok x) :
    ∃ t, t.isNum = true ∧ Fresh x t := by
  simp only [other] at h
  split at h
  next j c k d _ _ =>
    refine ⟨.num (e.usual j k) false, rfl, ?_⟩
    split_ifs at h
    · cases h; exact fresh_fold _ _
    · cases h; exact fresh_op _
  · cases h

theorem plus_fresh {e : Env} {v : V} {x : X} (hv : Ok v) (h : plus e v = .ok x) :
    ∃ t, t.isNum = true ∧ Fresh x t := by
  cases tv : v.ty <;> simp only [plus, tv] at h <;> try (cases h; done)
  rename_i k c
  split_ifs at h
  · cases h
    exact ⟨.num k c, rfl, ⟨by simpa [eval, tv] using hv.adr, by simp [eval], by simp [eval, tv, Ty.isNum]⟩, rfl, rfl⟩
  · cases h; exact ⟨_, rfl, fresh_imm _ _⟩
  · cases h; exact ⟨_, rfl, fresh_op _⟩

theorem rvalue_num {e : Env} {v w : V} (n : v.ty.isNum = true) (h : rvalue e v = .ok w) :
    w.ty.isNum = true := by
  cases tv : v.ty <;> simp [tv, Ty.isNum] at n
  simp only [rvalue, tv] at h
  split_ifs at h
  · cases h; rfl
  · cases h; simp [tv, Ty.isNum]

theorem sub_num {e : Env} {l r : V} {x : X} (hl : Ok l) (hr : Ok r)
    (nl : l.ty.isNum = true) (nr : r.ty.isNum = true) (h : sub e l r = .ok x) :
    ∃ t, t.isNum = true ∧ Fresh x t := by
  simp only [sub, bind, Except.bind] at h
  cases h1 : rvalue e l with
  | error => simp [h1] at h
  | ok l' =>
    cases h2 : rvalue e r with
    | error => simp [h1, h2] at h
    | ok r' =>
      simp only [h1, h2] at h
      exact addSub_num (rvalue_ok hl h1) (rvalue_ok hr h2) (rvalue_num nl h1) (rvalue_num nr h2) h

theorem add_num {e : Env} {l r : V} {x : X} (hl : Ok l) (hr : Ok r)
    (nl : l.ty.isNum = true) (nr : r.ty.isNum = true) (h : add e l r = .ok x) :
    ∃ t, t.isNum = true ∧ Fresh x t := by
  simp only [add, bind, Except.bind] at h
  cases h1 : rvalue e l with
  | error => simp [h1] at h
  | ok l' =>
    cases h2 : rvalue e r with
    | error => simp [h1, h2] at h
    | ok r' =>
      have n2 := rvalue_num nr h2
      have p2 : r'.ty.isPtr = false := by cases hh : r'.ty <;> simp_all [Ty.isNum, Ty.isPtr]
      simp only [h1, h2, p2] at h
      exact addSub_num (rvalue_ok hl h1) (rvalue_ok hr h2) (rvalue_num nl h1) n2 (by simpa using h)

theorem add_ok {e : Env} {l r : V} {x : X} (hl : Ok l) (hr : Ok r) (h : add e l r = .ok x) :
    Ok (eval x) := by
  simp only [add, bind, Except.bind] at h
  cases h1 : rvalue e l with
  | error => simp [h1] at h
  | ok l' =>
    cases h2 : rvalue e r with
    | error => simp [h1, h2] at h
    | ok r' =>
      simp only [h1, h2] at h
      split_ifs at h
      · exact addSub_ok (rvalue_ok hr h2) (rvalue_ok hl h1) h
      · exact addSub_ok (rvalue_ok hl h1) (rvalue_ok hr h2) h

theorem sub_ok {e : Env} {l r : V} {x : X} (hl : Ok l) (hr : Ok r) (h : sub e l r = .ok x) :
    Ok (eval x) := by
  simp only [sub, bind, Except.bind] at h
  cases h1 : rvalue e l with
  | error => simp [h1] at h
  | ok l' =>
    cases h2 : rvalue e r with
    | error => simp [h1, h2] at h
    | ok r' =>
      simp only [h1, h2] at h
      exact addSub_ok (rvalue_ok hl h1) (rvalue_ok hr h2) h

theorem neg_fresh {e : Env} {v : V} {x : X} (hv : Ok v) (h : neg e v = .ok x) :
    ∃ t, t.isNum = true ∧ Fresh x t := by
  cases tv : v.ty <;> simp only [neg, tv] at h <;> try (cases h; done)
  split_ifs at h with a b
  · exact sub_num (ok_imm _ _) hv rfl (by simp [tv, Ty.isNum]) h
  · cases h
    exact ⟨v.ty, by simp [tv, Ty.isNum], ⟨fun k => by simp [eval, b] at k, fun k => hv.imm b,
      fun _ => by simp [eval, Ty.isNum]⟩, hv.imm b, by simp [eval, tv]⟩
  · cases h; exact ⟨_, rfl, fresh_op _⟩

theorem member_ok {e : Env} (he : e.Fields) {v w : V} {m : Nat} (hv : Ok v)
    (h : member e v m = .ok w) : Ok w := by
  cases tv : v.ty <;> simp only [member, tv] at h <;> try (cases h; done)
  split at h
  next t off f hm =>
    cases h
    refine ⟨fun k => ?_, fun k => hv.imm k, fun k => ?_⟩
    · have := hv.adr k; simp [tv, Ty.isPtr] at this
    · cases f with
      | none => simp at k
      | some b => exact he _ _ _ _ _ hm
  · cases h

theorem bind_ok {α β : Type} {m : R α} {f : α → R β} {y : β} (h : (m >>= f) = .ok y) :
    ∃ x, m = .ok x ∧ f x = .ok y := by
  cases m with
  | error => cases h
  | ok x => exact ⟨x, rfl, h⟩

theorem prepare_imm {e : Env} {x : X} {t : Ty} {c : V} (h : prepare e x t = .ok (some c)) :
    ∃ v, c = imm t v := by
  obtain ⟨y, _, h⟩ := bind_ok h
  repeat' split at h
  all_goals first | (cases h; done) | (cases h; exact ⟨_, rfl⟩)

theorem addr_stop {v : V} {s : Stop} (h : addr v = .error s) : s ≠ .notLvalue := by
  simp only [addr] at h
  by_cases hf : v.field.isSome = true
  · rw [if_pos hf] at h; cases h; simp
  rw [if_neg hf] at h
  cases hk : v.kind <;> simp only [hk] at h
  · cases h; simp
  · split_ifs at h; cases h; simp
  · split_ifs at h <;> cases h <;> simp
  · cases hs : v.sym <;> simp only [hs] at h
    · cases h
    · split_ifs at h

theorem prepared_stop {e : Env} {x : X} {s : Stop} (h : prepared e x = .error s) :
    s ≠ .notLvalue := by
  cases x with
  | op => cases h
  | id v =>
    cases hr : rvalue e v with
    | ok w => simp [prepared, hr, Except.map] at h
    | error s' =>
      simp only [prepared, hr, Except.map] at h
      cases h
      simp only [rvalue] at hr
      split at hr
      · exact addr_stop hr
      · split_ifs at hr

theorem prepare_stop {e : Env} {x : X} {t : Ty} {s : Stop} (h : prepare e x t = .error s) :
    s ≠ .notLvalue := by
  simp only [prepare, bind, Except.bind] at h
  cases hp : prepared e x with
  | error s' =>
    simp only [hp] at h
    cases h
    exact prepared_stop hp
  | ok y =>
    simp only [hp] at h
    repeat' split at h
    all_goals first | (cases h; done) | (cases h; simp)

theorem assign_res {e : Env} {t w : V} {x : X} (ht : Ok t) (h : assign e t x = .ok w) :
    t.lv = true ∧ w.lv = false ∧ Ok w ∧ w.ty = t.ty := by
  simp only [assign, bind, Except.bind] at h
  split_ifs at h with a b
  cases hp : prepare e x t.ty with
  | error => simp [hp] at h
  | ok o =>
    cases o with
    | none =>
      simp only [hp] at h
      cases h
      exact ⟨by simpa using a, rfl, ⟨ht.adr, by simp, ht.field⟩, rfl⟩
    | some c =>
      simp only [hp] at h
      cases h
      obtain ⟨v, rfl⟩ := prepare_imm hp
      exact ⟨by simpa using a, rfl, ok_imm _ _, rfl⟩

theorem cond_ok {e : Env} {c a b x : X} (ha : Ok (eval a)) (hb : Ok (eval b))
    (h : cond e c a b = .ok x) : Ok (eval x) := by
  simp only [cond, bind, Except.bind] at h
  cases h1 : rvalue e (eval a) with
  | error => simp [h1] at h
  | ok l =>
    cases h2 : rvalue e (eval b) with
    | error => simp [h1, h2] at h
    | ok r =>
      simp only [h1, h2] at h
      cases ht : condType e l r with
      | error => cases c <;> simp [ht] at h
      | ok t =>
        cases c with
        | op => simp only [ht] at h; cases h; exact ok_create _
        | id c =>
          simp only [ht] at h
          split_ifs at h with k z
          all_goals try (cases h; exact ok_create _)
          all_goals
            simp only [cast, bind, Except.bind, h1, h2] at h
            split_ifs at h with s f
            cases h
            simp only [condType] at ht
          · split at ht
            · cases ht
              exact (convert_num (rvalue_ok ha h1) (by simp [*, Ty.isNum]) rfl).1
            · rename_i q _; simp [q, Ty.isNum, Ty.isPtr] at s
            · split_ifs at ht with q
              cases ht
              rename_i q1 _
              simp only [convert, q1, if_true]
              exact rvalue_ok ha h1
            · cases ht
            · cases ht
            · cases ht
          · split at ht
            · cases ht
              exact (convert_num (rvalue_ok hb h2) (by simp [*, Ty.isNum]) rfl).1
            · rename_i q; simp [q, Ty.isNum, Ty.isPtr] at s
            · split_ifs at ht with q
              cases ht
              rename_i q1 q2
              simp only [convert, q2, ← q, if_true]
              exact rvalue_ok hb h2
            · cases ht
            · cases ht
            · cases ht

theorem value_ok {e : Env} (he : e.Fields) : ∀ {a : E} {x : X}, NoCast a → value e a = .ok x →
    Ok (eval x)
  | .obj t, x, _, h => by
    cases h; exact ⟨by simp [eval, direct], by simp [eval, direct], by simp [eval, direct]⟩
  | .num k v, x, _, h => by cases h; exact ok_imm _ _
  | .call t, x, _, h => by cases h; exact ok_op _
  | .deref a, x, n, h => by
    obtain ⟨y, h1, h⟩ := bind_ok h
    obtain ⟨w, h2, h⟩ := bind_ok h
    cases h
    exact deref_ok (value_ok he (a := a) n h1) h2
  | .addr a, x, n, h => by
    obtain ⟨y, h1, h⟩ := bind_ok h
    obtain ⟨w, h2, h⟩ := bind_ok h
    cases h
    exact addr_ok h2
  | .index a i, x, n, h => by
    obtain ⟨y, h1, h⟩ := bind_ok h
    obtain ⟨z, h2, h⟩ := bind_ok h
    obtain ⟨s, h3, h⟩ := bind_ok h
    obtain ⟨w, h4, h⟩ := bind_ok h
    cases h
    exact deref_ok (add_ok (value_ok he n.1 h1) (value_ok he n.2 h2) h3) h4
  | .member a m, x, n, h => by
    obtain ⟨y, h1, h⟩ := bind_ok h
    obtain ⟨w, h2, h⟩ := bind_ok h
    cases h
    exact member_ok he (value_ok he (a := a) n h1) h2
  | .arrow a m, x, n, h => by
    obtain ⟨y, h1, h⟩ := bind_ok h
    obtain ⟨v, h2, h⟩ := bind_ok h
    obtain ⟨w, h3, h⟩ := bind_ok h
    cases h
    exact member_ok he (deref_ok (value_ok he (a := a) n h1) h2) h3
  | .plus a, x, n, h => by
    obtain ⟨y, h1, h⟩ := bind_ok h
    obtain ⟨t, _, f⟩ := plus_fresh (value_ok he (a := a) n h1) h
    exact f.1
  | .neg a, x, n, h => by
    obtain ⟨y, h1, h⟩ := bind_ok h
    obtain ⟨t, _, f⟩ := neg_fresh (value_ok he (a := a) n h1) h
    exact f.1
  | .add a b, x, n, h => by
    obtain ⟨y, h1, h⟩ := bind_ok h
    obtain ⟨z, h2, h⟩ := bind_ok h
    exact add_ok (value_ok he n.1 h1) (value_ok he n.2 h2) h
  | .sub a b, x, n, h => by
    obtain ⟨y, h1, h⟩ := bind_ok h
    obtain ⟨z, h2, h⟩ := bind_ok h
    exact sub_ok (value_ok he n.1 h1) (value_ok he n.2 h2) h
  | .other o a b, x, n, h => by
    obtain ⟨y, h1, h⟩ := bind_ok h
    obtain ⟨z, h2, h⟩ := bind_ok h
    obtain ⟨t, _, f⟩ := other_fresh h
    exact f.1
  | .cast t a, x, n, h => n.elim
  | .cond c a b, x, n, h => by
    obtain ⟨w, h0, h⟩ := bind_ok h
    obtain ⟨y, h1, h⟩ := bind_ok h
    obtain ⟨z, h2, h⟩ := bind_ok h
    exact cond_ok (value_ok he n.2.1 h1) (value_ok he n.2.2 h2) h
  | .comma a b, x, n, h => by
    obtain ⟨y, h1, h⟩ := bind_ok h
    exact value_ok he n.2 h
  | .assign a b, x, n, h => by
    obtain ⟨y, h1, h⟩ := bind_ok h
    obtain ⟨z, h2, h⟩ := bind_ok h
    obtain ⟨w, h3, h⟩ := bind_ok h
    cases h
    exact (assign_res (value_ok he n.1 h1) h3).2.2.1
  | .incr a, x, n, h => by
    obtain ⟨y, h1, h⟩ := bind_ok h
    obtain ⟨z, h2, h⟩ := bind_ok h
    obtain ⟨w, h3, h⟩ := bind_ok h
    cases h
    exact (assign_res (value_ok he (a := a) n h1) h3).2.2.1
  | .postIncr a, x, n, h => by
    obtain ⟨y, h1, h⟩ := bind_ok h
    obtain ⟨o, h2, h⟩ := bind_ok h
    obtain ⟨w, h3, h⟩ := bind_ok h
    obtain ⟨s, h4, h⟩ := bind_ok h
    obtain ⟨u, h5, h⟩ := bind_ok h
    cases h
    exact (assign_res (ok_create _) h3).2.2.1

theorem value_ok' {e : Env} (he : e.Fields) {a : E} {x : X} (h : value e a = .ok x) (n : NoCast a) :
    Ok (eval x) :=
  value_ok he n h

end Verif.Lval
