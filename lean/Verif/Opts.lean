import Verif.Module

/-!
# The options of the command line

`bin/mnml.c:251-282` with `getopt` of POSIX (and glibc, with `+` in front of the option string: no permutation), and the exit status
(`bin/mnml.c:387`, `bin/mnml.c:400-406`).

Not modelled: signals; the messages of `getopt`, the help text and the text of `-v`; `getopt` of systems other than Linux; failure of `getcwd` and of `module_init`.
-/

namespace Mnml
namespace Opts

/-- A C string. -/
abbrev Str := List UInt8

/-- What `getopt` returns: a letter without argument, `e` with its argument, or `?`. -/
inductive Opt where
  | flag (c : UInt8) | expr (a : Str) | bad
deriving DecidableEq

/-- The letters without argument: `h`, `v`, `b`, `d` (`bin/mnml.c:254`). -/
def isFlag (c : UInt8) : Bool := c = 104 || c = 118 || c = 98 || c = 100

/-- The letters of one argument after its `-`; and whether the argument of `e` has to come from the next one
(`getopt` with the options `hvbde:`, `bin/mnml.c:254`). -/
def scan : Str → List Opt × Bool
  | [] => ([], false)
  | c :: cs =>
    if c = 101 then
      match cs with
      | [] => ([], true)
      | _ => ([.expr cs], false)
    else
      let r := scan cs
      ((if isFlag c then .flag c else .bad) :: r.1, r.2)

/-- The results of the calls of `getopt` until it returns -1, and the arguments from `optind` on: `--` ends the options, and so does an argument
that does not begin with `-` or is `-` (`bin/mnml.c:237-238`: `+` in front of the options). -/
def getopt : List Str → List Opt × List Str
  | [] => ([], [])
  | (45 :: c :: cs) :: as =>
    if c = 45 ∧ cs = [] then ([], as)
    else
      let r := scan (c :: cs)
      if r.2 then
        match as with
        | [] => (r.1 ++ [.bad], [])
        | a :: as => (r.1 ++ .expr a :: (getopt as).1, (getopt as).2)
      else (r.1 ++ (getopt as).1, (getopt as).2)
  | a :: as => ([], a :: as)

/-- What `main` is going to do (`bin/mnml.c:255-274`). -/
inductive Action where
  | help | version | usage
  | run (bare check : Bool) (expr : Option Str)
deriving DecidableEq

/-- The loop over the options (`bin/mnml.c:254-275`). -/
def process : List Opt → Bool → Bool → Option Str → Action
  | [], b, d, e => .run b d e
  | .expr a :: os, b, d, _ => process os b d (some a)
  | .flag c :: os, b, d, e =>
    if c = 98 then process os true d e
    else if c = 100 then process os b true e
    else if c = 104 then .help
    else if c = 118 then .version
    else .usage
  | .bad :: _, _, _, _ => .usage

/-- What the parent process sees of the value that `main` returns (`bin/mnml.c:406`): its lowest eight bits. -/
def exitCode (i : Int) : Nat := (i % 256).toNat

/-- `main` (`bin/mnml.c:246-407`) on the arguments after the name of the program: the exit status, and what has been run if anything. `leak` tells
whether the slab has cells left at the end (`slab->n_alloc != slab->n_free`). 273 is the line of the return statement after the
help text. -/
def program (os : Module.Os) (ev : Val → M Val) (n : Nat) (b : Module.Build) (environ : List Str) (cwd input : Str) (leak : Val → Module.SSt → Bool)
    (args : List Str) : Res (Nat × Option (Val × Module.SSt)) :=
  match process (getopt args).1 false false none with
  | .help => .ok (exitCode 0, none)
  | .version => .ok (exitCode 0, none)
  | .usage => .ok (exitCode 273, none)
  | .run bare check expr => do
    let (status, r, s) ← Module.main os ev n b ⟨bare, expr, (getopt args).2, environ, cwd, input⟩
    let status := if check && leak r s then -2 else status
    .ok (exitCode status, some (r, s))

end Opts
end Mnml
