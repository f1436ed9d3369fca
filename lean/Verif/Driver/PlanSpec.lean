import Verif.Driver.Plan

/-!
# What an invocation is to compile and link

As documented for compilers: the last of `-c`, `-S`, `-E` and `-dot` counts; a file is C if its
name ends in `.c` or `.i` or the last `-x` before it says so, and goes to the linker otherwise; the linker gets objects,
libraries and options in the order of the command line.
-/

namespace Verif.Driver

/-- What each argument gives, with the arguments before it. -/
def eachWith {α : Type} (f : List Arg → Arg → List α) (pre : List Arg) : List Arg → List α
  | [] => []
  | a :: r => f pre a ++ eachWith f (pre ++ [a]) r

/-- The last value given by an argument. -/
def lastOf {α : Type} (f : Arg → Option α) (args : List Arg) : Option α := (args.filterMap f).getLast?

def modeOf (args : List Arg) : Target :=
  (lastOf (fun | .mode t => some t | _ => none) args).getD .exe

def outOf (args : List Arg) : Option Bytes := lastOf (fun | .out n => some n | _ => none) args

/-- The language of a file behind these arguments. -/
def languageOf (pre : List Arg) (name : Bytes) : Lang :=
  match lastOf (fun | .lang l => some l | _ => none) pre with
  | some .c => .c
  | some .asm => .asm
  | _ => if (str% ".c") <:+ name ∨ (str% ".i") <:+ name then .c else .unknown

def sources (args : List Arg) : List (Bytes × Lang) :=
  eachWith (fun pre => fun
    | .file n => [(n, languageOf pre n)]
    | _ => []) [] args

/-- What the linker gets for one argument. -/
def linkOf (pre : List Arg) : Arg → List Bytes
  | .file n => [match languageOf pre n with | .unknown => n | _ => changeSuffix n (str% ".o")]
  | .out n => [str% "-o", n]
  | .lib j n => if j then [str% "-l" ++ n] else [str% "-l", n]
  | .path j n => if j then [str% "-L" ++ n] else [str% "-L", n]
  | .shared => [str% "-shared"]
  | .linker t => [t]
  | .rdynamic => [str% "-export-dynamic"]
  | .wl opts => opts
  | .mode _ | .lang _ | .pic _ => []

/-- The file a program begins in: none for a shared library. -/
def startup (args : List Arg) : List Bytes :=
  if Arg.shared ∈ args then []
  else if (lastOf (fun | .pic b => some b | _ => none) args).getD true then
    [str% "/usr/lib/x86_64-linux-gnu/Scrt1.o"]
  else [str% "/usr/lib/x86_64-linux-gnu/crt1.o"]

def isKnown (f : Bytes × Lang) : Bool := f.2 != .unknown

/-- The files to compile, or to preprocess; `none` if there is one that cannot be. -/
def toProcess (args : List Arg) : Option (List (Bytes × Lang)) :=
  match modeOf args with
  | .preprocess => some ((sources args).map fun f => if isKnown f then f else (f.1, .c))
  | .exe => some ((sources args).filter isKnown)
  | _ => if (sources args).all isKnown then some (sources args) else none

/-- The outputs: the name given, which is for one output, or the default (C52). -/
def outputOf (args : List Arg) (name : Bytes) : Option Bytes :=
  match modeOf args, outOf args with
  | .exe, _ => some (changeSuffix name (str% ".o"))
  | _, some o => some o
  | .obj, none => some (changeSuffix name (str% ".o"))
  | .asm, none => some (changeSuffix name (str% ".s"))
  | .dot, none => some (changeSuffix name (str% ".dot"))
  | .preprocess, none => none

/-- The invocation is one that makes sense. -/
def Sensible (args : List Arg) (files : List (Bytes × Lang)) : Prop :=
  sources args ≠ [] ∧ (modeOf args ≠ .exe → (outOf args).isSome → files.length = 1)

end Verif.Driver
