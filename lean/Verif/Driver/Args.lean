import Verif.Bytes
/-!
# Model: command line options

src/util/argparse.c, all functions; the option table of src/lacc.c:475-522; `define_macro` lacc.c:365-383,
`change_file_suffix` lacc.c:245-284, `main` lacc.c:676-707, `invoke_linker` linker.c:118-165 as far as
they determine the exit status.
-/
namespace Verif.Driver

/-- The loop argparse.c:23-26. -/
def skipEqual : Bytes → Bytes → Bytes × Bytes
  | r :: rule, a :: arg => if r = a then skipEqual rule arg else (r :: rule, a :: arg)
  | rule, arg => (rule, arg)

/-- Scan to one of the given characters: text before it, and text from it on.  `none`: the end of the
string is passed. -/
def scanTo (cs : List UInt8) : Bytes → Option (Bytes × Bytes)
  | [] => none
  | b :: r => if b ∈ cs then some ([], b :: r) else (scanTo cs r).map fun p => (b :: p.1, p.2)

/-- The `do … while` over alternatives, argparse.c:40-55: `some (some (rule, arg))` is the recursive call,
`some none` the final `return 0`; `rule` is the text after `{` or `|`. -/
def alternatives : Nat → Bytes → Bytes → Option (Option (Bytes × Bytes))
  | 0, _, _ => none
  | k + 1, rule, arg =>
    match scanTo [chr% '}', chr% '|'] rule with
    | none => none
    | some (o, rest) =>
      if o.isPrefixOf arg then
        (scanTo [chr% '}'] rest).map fun p => some (p.2.drop 1, arg.drop o.length)
      else if rest.head? = some (chr% '|') then alternatives k (rest.drop 1) arg
      else some none

/-- `match_rule`, argparse.c:16-59.  `none`: a bracket is not closed (reads past the string), or the
bound on the recursion is too small; the rule length is enough. -/
def matchRule : Nat → Bytes → Bytes → Option Bool
  | 0, _, _ => none
  | k + 1, rule, arg =>
    let p := skipEqual rule arg
    match p.1 with
    | [] => some (p.2 = [])
    | c :: r =>
      if c = chr% '[' then
        match scanTo [chr% ']'] r with
        | none => none
        | some (o, rest) =>
          if o.isPrefixOf p.2 then matchRule k (rest.drop 1) (p.2.drop o.length)
          else matchRule k (rest.drop 1) p.2
      else if c = chr% '{' then
        match alternatives (r.length + 1) r p.2 with
        | none => none
        | some none => some false
        | some (some q) => matchRule k q.1 q.2
      else some false

/-- Result of `match_arg`, argparse.c:69-116, before the callback is called. -/
inductive Match where
  | no
  /-- callback with this text; number of arguments consumed -/
  | call (text : Bytes) (used : Nat)
  | missing
  deriving DecidableEq, Repr

/-- `match_arg`, argparse.c:69-116; `more` are the arguments after `arg`. -/
def matchArg (rule : Bytes) (arg : Bytes) (more : List Bytes) : Option Match :=
  match rule.getLast? with
  | none => none
  | some c =>
    if c = chr% ':' then
      let p := rule.dropLast
      if p.isPrefixOf arg then
        if arg.length = p.length then
          match more with
          | [] => some .missing
          | next :: _ => some (.call next 2)
        else some (.call (arg.drop p.length) 1)
      else some .no
    else if c = chr% '<' ∨ c = chr% '=' then
      let p := if c = chr% '<' then rule.dropLast else rule
      if p.isPrefixOf arg then
        if arg.length = p.length then some .missing else some (.call (arg.drop p.length) 1)
      else some .no
    else
      (matchRule (rule.length + 1) rule arg).map fun b => if b then .call arg 1 else .no

/-- First option that matches, argparse.c:135-139, with its number. -/
def findOption : List Bytes → Nat → Bytes → List Bytes → Option (Option (Nat × Match))
  | [], _, _, _ => some none
  | rule :: rules, i, arg, more =>
    match matchArg rule arg more with
    | none => none
    | some .no => findOption rules (i + 1) arg more
    | some m => some (some (i, m))

/-- Callback number (the number of rules for an input file) and its text. -/
abbrev Call := Nat × Bytes

/-- `parse_args`, argparse.c:125-157, from some argument on: the calls made and the return value. `cb` is
the return value of the callbacks. -/
def parseArgs (rules : List Bytes) (cb : Nat → Bytes → Int) : Nat → List Bytes → Option (List Call × Int)
  | 0, _ => none
  | _ + 1, [] => some ([], 0)
  | k + 1, arg :: more =>
    let called (i : Nat) (text : Bytes) (rest : List Bytes) : Option (List Call × Int) :=
      if cb i text ≠ 0 then some ([(i, text)], cb i text)
      else (parseArgs rules cb k rest).map fun r => ((i, text) :: r.1, r.2)
    if arg.head? = some (chr% '-') then
      match findOption rules 0 arg more with
      | none => none
      | some none => some ([], 1)
      | some (some (_, .missing)) => some ([], 1)
      | some (some (_, .no)) => none
      | some (some (i, .call text used)) => called i text (more.drop (used - 1))
    else called rules.length arg more

/-- The option table, lacc.c:475-522. -/
def driverRules : List Bytes :=
  [str% "-S", str% "-E", str% "-c", str% "-v", str% "-w", str% "-g", str% "-W", str% "-W<", str% "-x:",
   str% "-f[no-]PIC", str% "-f[no-]fast-math", str% "-f[no-]strict-aliasing", str% "-f[no-]common",
   str% "-fvisibility=", str% "-m[no-]sse", str% "-m[no-]sse2", str% "-m[no-]3dnow", str% "-m[no-]mmx",
   str% "-dot", str% "--help", str% "--version", str% "-march=", str% "-o:", str% "-I:", str% "-O{0|1|2|3}",
   str% "-std=", str% "-D:", str% "--dump-symbols", str% "--dump-types", str% "-nostdinc", str% "-isystem:",
   str% "-include:", str% "-print-file-name=", str% "-pipe", str% "-pedantic", str% "-MD", str% "-MP",
   str% "-Wl,", str% "-rdynamic", str% "-shared", str% "-static", str% "-[no]pie", str% "-f[no-]PIE",
   str% "-l:", str% "-L:"]

/-- Position of the last occurrence, as `strrchr`. -/
def lastPos (c : UInt8) : Bytes → Option Nat
  | [] => none
  | b :: r =>
    match lastPos c r with
    | some i => some (i + 1)
    | none => if b = c then some 0 else none

/-- `change_file_suffix`, lacc.c:245-284; `suffix` is `.o`, `.s` or `.dot`. -/
def changeSuffix (file suffix : Bytes) : Bytes :=
  let file := match lastPos (chr% '/') file with
    | some i => file.drop (i + 1)
    | none => file
  let len := (lastPos (chr% '.') file).getD file.length
  file.take len ++ suffix

/-- Position of the first occurrence, as `strchr`. -/
def firstPos (c : UInt8) : Bytes → Option Nat
  | [] => none
  | b :: r => if b = c then some 0 else (firstPos c r).map (· + 1)

/-- `define_macro`, lacc.c:365-383: the line handed to the preprocessor. -/
def defineMacro (arg : Bytes) : Bytes :=
  match firstPos (chr% '=') arg with
  | some i => (str% "#define " ++ arg).set (8 + i) (chr% ' ')
  | none => str% "#define " ++ arg ++ str% " 1"

/-- How the child process that runs the linker ends, linker.c:143-158. -/
inductive LinkerEnd where
  | forkFailed
  | execFailed
  | exited (code : Fin 256)
  | killed (signal : Nat)
  deriving DecidableEq, Repr

/-- `invoke_linker`, linker.c:118-165: the return value.  After a failed `execvp` the child calls
`_exit(0)`; `WEXITSTATUS` of a killed process is 0 (bits 8-15 of a status that only has a signal number). -/
def invokeLinker : LinkerEnd → Int
  | .forkFailed => 1
  | .execFailed => 0
  | .exited c => c.val
  | .killed _ => 0

/-- `main`, lacc.c:676-707.  `args` is the result of parsing the command line, `files` the error count
after each input file (`context.errors` is never reset; processing stops at the first non-zero), `exe`
whether to link.  The result is the argument of `exit`. -/
def mainReturn (args : Int) (files : List Int) (exe : Bool) (ld : LinkerEnd) : Int :=
  let rec go : List Int → Int
    | [] => if exe then invokeLinker ld else 0
    | f :: fs => if f ≠ 0 then f else go fs
  let ret := if args ≠ 0 then args else go files
  if ret < 0 then 0 else ret

/-- The status seen by the parent process: the low eight bits. -/
def exitStatus (ret : Int) : Int := ret % 256

end Verif.Driver
