import Verif.Declarator.Main

/-!
# C84: declarators have the types that C says

Full statement: for each declarator that C99 6.7.5 and 6.7.6 allow, with or without a name, after specifiers for any type, the type is the one that C gives
it, the name is the one in it, and reading stops behind it.

The code rejects `int ([3])` as the name of a type, and takes `int (T)` for a function if `T` is a type that is declared anew.  The theorem is for all
declarators of pointers with qualifiers, arrays with constant lengths, functions with and without prototypes, and parentheses around any of them that
do not begin with `[`.  Not modelled: arrays with variable lengths, `static` and qualifiers in brackets, lists of identifiers, limits of sizes.
-/

namespace Verif.Declarator

/-- The type of a declarator and its name.  A type of an array element that has no size or is a function, and a function that returns a function or an
array, are no types in C (`Dcl.Ok`). -/
theorem C84_declarator_partial (d : Dcl) (t : Ty) (h : d.Ok t) (named : Bool) (hn : named = true ∨ d.ident = none) (rest : List Tok) (hr : Stop rest) :
    ∃ F, ∀ f, F ≤ f → declarator f named false t (d.toks ++ rest) = .ok (d.type t, d.ident, rest) := by
  obtain ⟨r, he, hl, _⟩ := reads (sizeOf d + 1) d (by omega) t named false rest h hn hr
  rw [hl rfl] at he
  exact he

/-- The type of a parameter is adjusted: arrays and functions are pointers. -/
theorem C84_parameter_partial (d : Dcl) (t : Ty) (h : d.Ok t) (rest : List Tok) (hr : Stop rest) :
    ∃ r F, adjust r = asParameter (d.type t) ∧ ∀ f, F ≤ f → declarator f true true t (d.toks ++ rest) = .ok (r, d.ident, rest) := by
  obtain ⟨r, ⟨F, he⟩, _, ha⟩ := reads (sizeOf d + 1) d (by omega) t true true rest h (.inl rfl) hr
  exact ⟨r, F, ha, he⟩

/-! ### An instance -/

/-- `*(*const (*f[3])(T a[], int (*)(void), ...))[4]` -/
def aDeclarator : Dcl :=
  .mk [[]] (.arr (.paren (.mk [[.const]] (.fn (.paren (.mk [[]] (.arr (.name 7) (some 3))))
    (.some (.cons (.td 5 (.base 2)) (.mk [] (.arr (.name 8) none)) (.last (.kw (.base 1)) (.mk [] (.fn (.paren (.mk [[]] .abs)) (.void (.kw .void)))) true)))))) (some 4))

/-- Array of 3 pointers to functions that return constant pointers to arrays of 4 pointers to `int`. -/
def aType : Ty :=
  .arr (some 3) (.ptr {} (.fn (.ptr { const := true } (.arr (some 4) (.ptr {} (.base 1))))
    (some ([.ptr {} (.base 2), .ptr {} (.fn (.base 1) (some ([], false)))], true))))

example : aDeclarator.type (.base 1) = aType := rfl

theorem aDeclarator_ok : aDeclarator.Ok (.base 1) := by
  simp [aDeclarator, Dcl.Ok, Dir.Ok, Args.Ok, Ps.Ok, Sp.type, Dcl.opens, Dir.opens, pointersTo, Ty.element, Ty.returned, Dcl.type, Dir.type]

example : ∃ F, ∀ f, F ≤ f → declarator f true false (.base 1) (aDeclarator.toks ++ [.other 0]) = .ok (aType, some 7, [.other 0]) :=
  C84_declarator_partial aDeclarator (.base 1) aDeclarator_ok true (.inl rfl) [.other 0] trivial

/-- A parameter `int *a[3][4]`: a pointer to an array of 4 pointers. -/
example : ∃ r F, adjust r = .ptr {} (.arr (some 4) (.ptr {} (.base 1))) ∧ ∀ f, F ≤ f → declarator f true true (.base 1)
    ([.star, .ident 1, .lb, .num 3, .rb, .lb, .num 4, .rb] ++ [.comma]) = .ok (r, some 1, [.comma]) :=
  C84_parameter_partial (.mk [[]] (.arr (.arr (.name 1) (some 3)) (some 4))) (.base 1) (by simp [Dcl.Ok, Dir.Ok, Ty.element, pointersTo]) [.comma] trivial

/-! ### Where the code does not do it -/

/-- `sizeof(int ([3]))`: the parenthesis is taken for the one of a list of parameters (declaration.c:331-346). -/
theorem C84_bracket_violated : (Dcl.mk [] (.paren (.mk [] (.arr .abs (some 3))))).type (.base 1) = .arr (some 3) (.base 1) ∧
    declarator 20 false false (.base 1) ((Dcl.mk [] (.paren (.mk [] (.arr .abs (some 3))))).toks ++ [.rp]) = .error := ⟨rfl, rfl⟩

/-- `typedef char T; void f(void) { int (T); }` declares an `int` with the name `T` (6.7.5p6); the code reads a function without a name that has a
parameter of type `char`. -/
theorem C84_typedef_violated (T : Nat) : (Dcl.mk [] (.paren (.mk [] (.name T)))).type (.base 1) = .base 1 ∧
    (Dcl.mk [] (.paren (.mk [] (.name T)))).ident = some T ∧
    declarator 20 true false (.base 1) [.lp, .tname T (.base 2), .rp, .other 0] = .ok (.fn (.base 1) (some ([.base 2], false)), none, [.other 0]) :=
  ⟨rfl, rfl, rfl⟩

end Verif.Declarator
