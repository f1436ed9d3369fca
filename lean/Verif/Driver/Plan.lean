import Verif.Driver.Args

/-!
# What an invocation compiles and links

Model of src/lacc.c:108-137 and 139-180 (`flag`, `option`: the modes and `-fPIC`), 182-203 (`language`), 223-229
(`set_output_name`), 286-314 (`add_input_file`), 397-442 (`add_linker_flag`, `add_linker_library`, `add_linker_path`),
524-574 (`parse_program_arguments` behind `parse_args`) and 676-705 (`main`), with src/backend/linker.c:47-96
(`init_linker`, as with glibc), 98-108 (`add_linker_arg`) and 125-141 (`invoke_linker`).

Simplifications.  The arguments are those that C15 gives to the functions of the table; options that say nothing about files and the linker are left
out.  `-l x` as two arguments is told from `-lx` by a flag, where the code looks at the byte two
before the text.  All input files are readable and without errors (C51).
-/

namespace Verif.Driver

inductive Target
  | exe | obj | asm | dot | preprocess
  deriving DecidableEq, Repr

inductive Lang
  | unknown | c | asm
  deriving DecidableEq, Repr

inductive Arg
  /-- `-c`, `-S`, `-E`, `-dot` -/
  | mode (t : Target)
  /-- `-x none`, `-x c`, `-x assembler` -/
  | lang (l : Lang)
  | out (name : Bytes)
  | file (name : Bytes)
  | lib (joined : Bool) (name : Bytes)
  | path (joined : Bool) (name : Bytes)
  /-- `-shared` -/
  | shared
  /-- `-static`, `-pie` and the like -/
  | linker (text : Bytes)
  | rdynamic
  /-- `-fPIC`, `-fno-PIC` -/
  | pic (on : Bool)
  /-- `-Wl,a,b` -/
  | wl (opts : List Bytes)
  deriving DecidableEq, Repr

structure State where
  target : Target
  lang : Lang
  out : Option Bytes
  files : List (Bytes × Lang)
  ld : List Bytes
  isShared : Bool
  pic : Bool
  deriving DecidableEq, Repr

/-- `strrchr(name, '.')` is `.c` or `.i`, lacc.c:292-295. -/
def isC (name : Bytes) : Bool :=
  match lastPos (chr% '.') name with
  | none => false
  | some i => name.drop (i + 1) = [chr% 'c'] || name.drop (i + 1) = [chr% 'i']

/-- `add_linker_arg` -/
def State.link (s : State) (a : Bytes) : State := { s with ld := s.ld ++ [a] }

def fileLang (l : Lang) (name : Bytes) : Lang :=
  if l = .unknown then (if isC name then .c else .unknown) else l

/-- The functions of the table.  `-Wl,` is taken by the rule for `-W` (C15). -/
def State.arg (s : State) : Arg → State
  | .mode t => { s with target := t }
  | .lang l => { s with lang := l }
  | .out n => (({ s with out := some n } : State).link (str% "-o")).link n
  | .file n =>
    let l := fileLang s.lang n
    ({ s with files := s.files ++ [(n, l)] } : State).link
      (if l ≠ .unknown then changeSuffix n (str% ".o") else n)
  | .lib true n => s.link (str% "-l" ++ n)
  | .lib false n => (s.link (str% "-l")).link n
  | .path true n => s.link (str% "-L" ++ n)
  | .path false n => (s.link (str% "-L")).link n
  | .shared => ({ s with isShared := true } : State).link (str% "-shared")
  | .linker t => s.link t
  | .rdynamic => s.link (str% "-export-dynamic")
  | .pic b => { s with pic := b }
  | .wl _ => s

/-- lacc.c:525-527 -/
def State.init : State := ⟨.exe, .unknown, none, [], [], false, true⟩

/-- The loop in lacc.c:533-550, from index `i` on, with `array_erase`; the number is `k`. -/
def sift (t : Target) (files : List (Bytes × Lang)) (i k : Nat) : Option (List (Bytes × Lang) × Nat) :=
  if h : i < files.length then
    if (files[i]).2 = .unknown then
      match t with
      | .preprocess => sift t (files.set i ((files[i]).1, .c)) (i + 1) k
      | .exe => sift t (files.eraseIdx i) i (k + 1)
      | _ => none
    else sift t files (i + 1) k
  else some (files, k)
termination_by files.length - i
decreasing_by
  · simp; omega
  · simp [List.length_eraseIdx, h]; omega
  · omega

/-- The suffix of lacc.c:251-268, if there is a default name. -/
def suffix : Target → Option Bytes
  | .preprocess => none
  | .dot => some (str% ".dot")
  | .asm => some (str% ".s")
  | .obj => some (str% ".o")
  | .exe => some (str% ".o")

/-- A file to process and the name of its output, `none` for standard output.  `process_file` does not look at the
language: everything is C. -/
structure Job where
  name : Bytes
  lang : Lang
  out : Option Bytes
  deriving DecidableEq, Repr

/-- `none` is a refused invocation. -/
structure Plan where
  jobs : List Job
  ld : Option (List Bytes)
  deriving DecidableEq, Repr

/-- linker.c:47-96 with glibc -/
def initLinker (isShared pic : Bool) : List Bytes :=
  [str% "/usr/bin/ld"] ++
  (if isShared then [] else
    [str% "-e", str% "_start", str% "-dynamic-linker", str% "/lib/x86_64-linux-gnu/ld-linux-x86-64.so.2",
      if pic then str% "/usr/lib/x86_64-linux-gnu/Scrt1.o" else str% "/usr/lib/x86_64-linux-gnu/crt1.o"]) ++
  [str% "/usr/lib/x86_64-linux-gnu/crti.o", str% "-L/usr/lib/x86_64-linux-gnu", str% "-L/usr/local/lib",
    str% "-L/usr/lib"]

/-- lacc.c:552-571, and `main` -/
def plan (args : List Arg) : Option Plan :=
  let s := args.foldl State.arg .init
  match sift s.target s.files 0 0 with
  | none => none
  | some (files, k) =>
    let n := files.length
    if n = 0 ∧ (k = 0 ∨ s.target ≠ .exe) then none
    else
      let jobs : Option (List Job) :=
        match s.out with
        | some o =>
          if s.target ≠ .exe then
            if n > 1 then none else some (files.map fun f => ⟨f.1, .c, some o⟩)
          else some (files.map fun f => ⟨f.1, .c, (suffix s.target).map (changeSuffix f.1)⟩)
        | none => some (files.map fun f => ⟨f.1, .c, (suffix s.target).map (changeSuffix f.1)⟩)
      match jobs with
      | none => none
      | some js =>
        some ⟨js, if s.target = .exe then
          some (initLinker s.isShared s.pic ++ s.ld ++ [str% "-lc", str% "/usr/lib/x86_64-linux-gnu/crtn.o"])
        else none⟩

end Verif.Driver
