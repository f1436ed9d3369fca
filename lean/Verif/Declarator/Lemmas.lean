import Verif.Declarator.Spec

/-!
# Declarators are read inside out
-/

namespace Verif.Declarator

set_option linter.unusedSimpArgs false

def Ev (P : Nat → Prop) : Prop := ∃ F, ∀ f, F ≤ f → P f

theorem Ev.all {P : Nat → Prop} (h : ∀ f, P f) : Ev P := ⟨0, fun f _ => h f⟩

theorem Ev.succ {P : Nat → Prop} (h : Ev fun f => P (f + 1)) : Ev P := by
  obtain ⟨F, h⟩ := h
  refine ⟨F + 1, fun f hf => ?_⟩
  cases f with
  | zero => omega
  | succ f => exact h f (by omega)

theorem Ev.mono {P Q : Nat → Prop} (h : Ev P) (i : ∀ f, P f → Q f) : Ev Q := by
  obtain ⟨F, h⟩ := h
  exact ⟨F, fun f hf => i f (h f hf)⟩

theorem Ev.and {P Q : Nat → Prop} (h : Ev P) (g : Ev Q) : Ev fun f => P f ∧ Q f := by
  obtain ⟨F, h⟩ := h
  obtain ⟨G, g⟩ := g
  exact ⟨max F G, fun f hf => ⟨h f (by omega), g f (by omega)⟩⟩

/-! ### What follows -/

/-- No `*` or qualifier follows. -/
def Plain : List Tok → Prop
  | .star :: _ | .const :: _ | .volatile :: _ | .restrict :: _ => False
  | _ => True

theorem Stop.plain {r : List Tok} (h : Stop r) : Plain r := by
  cases r with
  | nil => trivial
  | cons a r => cases a <;> first | trivial | exact h.elim

/-! ### Pointers -/

def Quals.add (q : Quals) (l : List Q) : Quals :=
  ⟨q.const || decide (.const ∈ l), q.volatile || decide (.volatile ∈ l), q.restrict || decide (.restrict ∈ l)⟩

theorem pointers_plain {t : Ty} {b : Bool} {r : List Tok} (h : Plain r) : pointers t b r = (t, r) := by
  cases r with
  | nil => unfold pointers; rfl
  | cons a r => cases a <;> first | exact h.elim | (unfold pointers; rfl)

theorem pointers_quals {t : Ty} {r : List Tok} : ∀ (l : List Q) (q : Quals),
    pointers (.ptr q t) true (l.map Q.tok ++ r) = pointers (.ptr (q.add l) t) true r := by
  intro l
  induction l with
  | nil => intro q; simp [Quals.add]
  | cons a l ih =>
    intro q
    cases a <;> simp only [List.map_cons, Q.tok, List.cons_append, pointers] <;> rw [ih] <;> congr 1 <;> simp [Quals.add]

theorem pointers_toks {r : List Tok} (h : Plain r) : ∀ (ps : List (List Q)) (t : Ty) (b : Bool),
    pointers t b ((ps.map starToks).flatten ++ r) = (pointersTo t ps, r) := by
  intro ps
  induction ps with
  | nil => intro t b; exact pointers_plain h
  | cons l ps ih =>
    intro t b
    have hq : Quals.add {} l = qualsOf l := by simp [Quals.add, qualsOf]
    simp only [List.map_cons, List.flatten_cons, starToks, List.cons_append, List.append_assoc, pointers]
    rw [pointers_quals, hq]
    exact ih _ _

/-! ### The type in the middle is put in later -/

theorem patch_pointers {T : Ty} : ∀ (ps : List (List Q)) (t : Ty), patch (pointersTo t ps) T = pointersTo (patch t T) ps := by
  intro ps
  induction ps with
  | nil => intro t; rfl
  | cons l ps ih => intro t; exact ih _

mutual
theorem Dcl.patch (d : Dcl) (t T : Ty) : patch (d.type t) T = d.type (patch t T) := by
  cases d with
  | mk ps d =>
    simp only [Dcl.type]
    rw [Dir.patch d, patch_pointers]

theorem Dir.patch (d : Dir) (t T : Ty) : patch (d.type t) T = d.type (patch t T) := by
  cases d with
  | name n => rfl
  | abs => rfl
  | paren d => simp only [Dir.type]; exact Dcl.patch d t T
  | arr d n => simp only [Dir.type]; exact Dir.patch d _ T
  | fn d a => simp only [Dir.type]; exact Dir.patch d _ T
end

theorem patched (d : Dcl) (T : Ty) : (if (d.type .void).isVoid then T else patch (d.type .void) T) = d.type T := by
  have h := Dcl.patch d .void T
  cases hv : d.type .void with
  | void => rw [hv] at h; exact h
  | _ => rw [hv] at h; exact h

theorem element_patch {t T : Ty} (h : (patch t T).element = true) : t.element = true := by
  cases t with
  | arr n t => cases n <;> first | exact h | rfl
  | fn => exact h
  | _ => rfl

theorem returned_patch {t T : Ty} (h : (patch t T).returned = true) : t.returned = true := by
  cases t with
  | arr n t => exact h
  | fn => exact h
  | _ => rfl

mutual
theorem Dcl.ok_patch (d : Dcl) {t T : Ty} (h : d.Ok (patch t T)) : d.Ok t := by
  cases d with
  | mk ps d =>
    simp only [Dcl.Ok] at h ⊢
    rw [← patch_pointers] at h
    exact Dir.ok_patch d h

theorem Dir.ok_patch (d : Dir) {t T : Ty} (h : d.Ok (patch t T)) : d.Ok t := by
  cases d with
  | name n => simp only [Dir.Ok]
  | abs => simp only [Dir.Ok]
  | paren d => simp only [Dir.Ok] at h ⊢; exact ⟨h.1, Dcl.ok_patch d h.2⟩
  | arr d n => simp only [Dir.Ok] at h ⊢; exact ⟨element_patch h.1, Dir.ok_patch d (t := .arr n t) h.2⟩
  | fn d a => simp only [Dir.Ok] at h ⊢; exact ⟨returned_patch h.1, h.2.1, Dir.ok_patch d (t := .fn t a.types) h.2.2⟩
end

/-! ### What follows a name -/

inductive Suf
  | arr (n : Option Nat)
  | fn (a : Args)

def Suf.toks : Suf → List Tok
  | .arr n => .lb :: lenToks n ++ [.rb]
  | .fn a => .lp :: a.toks ++ [.rp]

def Suf.ap : Suf → Ty → Ty
  | .arr n, t => .arr n t
  | .fn a, t => .fn t a.types

def Suf.Ok (t : Ty) : Suf → Prop
  | .arr _ => t.element = true
  | .fn a => t.returned = true ∧ a.Ok

def aps (l : List Suf) (t : Ty) : Ty := l.foldr Suf.ap t

def SufsOk : List Suf → Ty → Prop
  | [], _ => True
  | s :: r, t => s.Ok (aps r t) ∧ SufsOk r t

def sufToks (l : List Suf) : List Tok := (l.map Suf.toks).flatten

def Dir.core : Dir → Dir
  | .arr d _ => d.core
  | .fn d _ => d.core
  | d => d

def Dir.tail : Dir → List Suf
  | .arr d n => d.tail ++ [.arr n]
  | .fn d a => d.tail ++ [.fn a]
  | _ => []

theorem sufsOk_snoc {l : List Suf} {s : Suf} {t : Ty} : SufsOk (l ++ [s]) t ↔ SufsOk l (s.ap t) ∧ s.Ok t := by
  induction l with
  | nil => simp [SufsOk, aps]
  | cons a l ih =>
    simp only [List.cons_append, SufsOk, ih, aps, List.foldr_append, List.foldr_cons, List.foldr_nil]
    tauto

theorem Dir.toks_eq (d : Dir) : d.toks = d.core.toks ++ sufToks d.tail := by
  induction d using Dir.core.induct with
  | case1 d n ih => simp [Dir.toks, Dir.core, Dir.tail, ih, sufToks, Suf.toks]
  | case2 d a ih => simp [Dir.toks, Dir.core, Dir.tail, ih, sufToks, Suf.toks]
  | case3 d h1 h2 => cases d <;> simp_all [Dir.core, Dir.tail, sufToks]

theorem Dir.type_eq (d : Dir) : ∀ t, d.type t = d.core.type (aps d.tail t) := by
  induction d using Dir.core.induct with
  | case1 d n ih => intro t; simp [Dir.type, Dir.core, Dir.tail, ih, aps, Suf.ap]
  | case2 d a ih => intro t; simp [Dir.type, Dir.core, Dir.tail, ih, aps, Suf.ap]
  | case3 d h1 h2 => intro t; cases d <;> simp_all [Dir.core, Dir.tail, aps]

theorem Dir.ident_eq (d : Dir) : d.ident = d.core.ident := by
  induction d using Dir.core.induct with
  | case1 d n ih => simp [Dir.ident, Dir.core, ih]
  | case2 d a ih => simp [Dir.ident, Dir.core, ih]
  | case3 d h1 h2 => cases d <;> simp_all [Dir.core]

theorem Dir.ok_eq (d : Dir) : ∀ t, d.Ok t ↔ d.core.Ok (aps d.tail t) ∧ SufsOk d.tail t := by
  induction d using Dir.core.induct with
  | case1 d n ih =>
    intro t
    simp only [Dir.Ok, Dir.core, Dir.tail, ih, sufsOk_snoc, aps, List.foldr_append, List.foldr_cons, List.foldr_nil, Suf.Ok, Suf.ap]
    tauto
  | case2 d a ih =>
    intro t
    simp only [Dir.Ok, Dir.core, Dir.tail, ih, sufsOk_snoc, aps, List.foldr_append, List.foldr_cons, List.foldr_nil, Suf.Ok, Suf.ap]
    tauto
  | case3 d h1 h2 => intro t; cases d <;> simp_all [Dir.core, Dir.tail, aps, SufsOk]

theorem Dir.core_cases (d : Dir) : (∃ n, d.core = .name n) ∨ d.core = .abs ∨ ∃ c, d.core = .paren c ∧ sizeOf c < sizeOf d := by
  induction d using Dir.core.induct with
  | case1 d n ih =>
    simp only [Dir.core]
    rcases ih with h | h | ⟨c, h, hs⟩
    · exact .inl h
    · exact .inr (.inl h)
    · exact .inr (.inr ⟨c, h, by simp; omega⟩)
  | case2 d a ih =>
    simp only [Dir.core]
    rcases ih with h | h | ⟨c, h, hs⟩
    · exact .inl h
    · exact .inr (.inl h)
    · exact .inr (.inr ⟨c, h, by simp; omega⟩)
  | case3 d h1 h2 =>
    cases d with
    | name n => exact .inl ⟨n, rfl⟩
    | abs => exact .inr (.inl rfl)
    | paren c => exact .inr (.inr ⟨c, rfl, by simp⟩)
    | arr d n => exact (h1 d n rfl).elim
    | fn d a => exact (h2 d a rfl).elim

theorem Dir.tail_size (d : Dir) {a : Args} : Suf.fn a ∈ d.tail → sizeOf a < sizeOf d := by
  induction d using Dir.core.induct with
  | case1 d n ih =>
    intro h
    simp [Dir.tail] at h
    have := ih h
    simp
    omega
  | case2 d b ih =>
    intro h
    simp [Dir.tail] at h
    rcases h with h | h
    · have := ih h
      simp
      omega
    · subst h
      simp
  | case3 d h1 h2 =>
    intro h
    cases d <;> simp_all [Dir.tail]

/-- Suffixes are brackets, or one list of parameters. -/
theorem suf_shape {l : List Suf} {t : Ty} (h : SufsOk l t) : l = [] ∨ (∃ n r, l = .arr n :: r) ∨ ∃ a, l = [.fn a] := by
  cases l with
  | nil => exact .inl rfl
  | cons s r =>
    cases s with
    | arr n => exact .inr (.inl ⟨n, r, rfl⟩)
    | fn a =>
      refine .inr (.inr ⟨a, ?_⟩)
      have hr : (aps r t).returned = true := h.1.1
      cases r with
      | nil => rfl
      | cons s r => cases s <;> cases hr

theorem element_complete {t : Ty} (h : t.element = true) : t.complete = true := by
  cases t with
  | arr n t => cases n <;> first | rfl | exact h
  | fn => cases h
  | _ => rfl

theorem array_toks {rest : List Tok} (hr : Stop rest) {t : Ty} : ∀ (r : List Suf) (n : Option Nat) (len : Bool), SufsOk (.arr n :: r) t →
    Ev fun f => array f len t (lenToks n ++ .rb :: (sufToks r ++ rest)) =
      .ok (if len then .ptr {} (aps r t) else .arr n (aps r t), rest) := by
  intro r
  induction r with
  | nil =>
    intro n len h
    have he : t.complete = true := element_complete h.1
    refine Ev.succ (Ev.all fun f => ?_)
    rcases n with _ | k <;> rcases rest with _ | ⟨a, r⟩ <;> (try cases a) <;> first | exact hr.elim | simp [lenToks, sufToks, array, aps, R.bind, he]
  | cons s r ih =>
    intro n len h
    have he := h.1
    cases s with
    | fn a => cases he
    | arr m =>
      have hco : (Ty.arr m (aps r t)).complete = true := element_complete he
      obtain ⟨F, hF⟩ := ih m false h.2
      refine Ev.succ ⟨F, fun f hf => ?_⟩
      have hF : array f false t (lenToks m ++ .rb :: (sufToks r ++ rest)) = _ := hF f hf
      have ht : sufToks (.arr m :: r) ++ rest = .lb :: (lenToks m ++ .rb :: (sufToks r ++ rest)) := by
        simp [sufToks, Suf.toks]
      rw [ht]
      cases n with
      | none =>
        rw [show lenToks none = [] from rfl]
        simp only [List.nil_append, array]
        rw [hF]
        simp only [R.bind]
        simp only [Bool.false_eq_true, if_false, hco, Bool.true_eq_false]
        rfl
      | some k =>
        rw [show lenToks (some k) = [.num k] from rfl]
        simp only [List.cons_append, List.nil_append, array]
        rw [hF]
        simp only [R.bind]
        simp only [Bool.false_eq_true, if_false, hco, Bool.true_eq_false]
        rfl

theorem Dir.opens_nested {x : List Tok} (d : Dir) (h : d.opens = true) : nested (d.toks ++ x) = true := by
  induction d using Dir.core.induct generalizing x with
  | case1 d n ih =>
    simp only [Dir.opens] at h
    simp only [Dir.toks, List.append_assoc]
    exact ih h
  | case2 d a ih =>
    cases d with
    | abs => simp [Dir.toks, nested]
    | name n => simp [Dir.toks, nested]
    | paren c => simp [Dir.toks, nested]
    | arr d n =>
      simp only [Dir.opens] at h
      rw [Dir.toks, List.append_assoc, List.append_assoc]
      exact ih h
    | fn d b =>
      have h : (Dir.fn d b).opens = true := h
      rw [Dir.toks, List.append_assoc, List.append_assoc]
      exact ih h
  | case3 d h1 h2 => cases d <;> simp_all [Dir.toks, nested, Dir.opens]

theorem Dcl.opens_nested {x : List Tok} (d : Dcl) (h : d.opens = true) : nested (d.toks ++ x) = true := by
  cases d with
  | mk ps d =>
    cases ps with
    | nil =>
      simp only [Dcl.toks, List.map_nil, List.flatten_nil, List.nil_append]
      exact Dir.opens_nested d (by simpa [Dcl.opens] using h)
    | cons l ps => simp [Dcl.toks, starToks, nested]

end Verif.Declarator
