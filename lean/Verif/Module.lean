import Verif.Eval
import Verif.Path
import Verif.Str
import Verif.Read

/-!
# Paths, binary modules and scripts

Models `lib/core/module.c`, the native `load` (`lib/mnml/std/load.c`), `lisp_get_fullpath` and `lisp_load_file` (`lib/core/utils.c:580-710`) and the
start of `bin/mnml.c`.

The operating system is a parameter. Simplifications: it does not change while the program runs (the files that `out` writes are not
loaded again); C strings are the lists of their bytes without the NUL; the symbols and handles that are leaked when a library is
refused are not modelled except for the reference counts of the libraries.

The evaluator of `Verif.Eval` does not know `load`. Here `load` is available to the expressions at the top level of a script; inside other
expressions it stays unsupported. Scripts cannot read their own text by `read` either, so what a channel has not delivered yet is
local to the loop that reads it; `Verif.Chan` has the stack of channels.
-/

namespace Mnml
namespace Module

open Val Lex

/-- The bytes of a literal. -/
def lit (cs : List Char) : List UInt8 := cs.map fun c => UInt8.ofNat c.toNat

/-- A shared library as `dlsym` shows it. `name` is what `lisp_module_name` returns, `entries` is the table of `lisp_module_entries`. Every entry is
made by `LISP_MODULE_SETUP` (`include/mnml/module.h:111-130`): a name and the value that its load function stores under that name. -/
structure SoLib where
  name : Option (List UInt8)
  entries : Option (List (List UInt8 × Val))
deriving DecidableEq

/-- The operating system. -/
structure Os where
  /-- `lisp_prefix()`, fixed when the program is built -/
  home : List UInt8
  getenv : List UInt8 → Option (List UInt8)
  realpath : List UInt8 → Option (List UInt8)
  /-- the contents of the file, if it can be read -/
  fopen : List UInt8 → Option (List UInt8)
  /-- the names in the directory -/
  opendir : List UInt8 → Option (List (List UInt8))
  dlopen : List UInt8 → Option SoLib
  /-- bytes that may be written behind a block of `alloca` without harm: 0 in the C standard, more where blocks are rounded up -/
  slack : Nat

/-- `PATH_MAX` of Linux. -/
def pathMax : Nat := 4096

/-- `strcpy` and `strcat` to a buffer of `cap` bytes: the string with its NUL must fit. -/
def copy (cap : Nat) (s : List UInt8) : Res (List UInt8) :=
  if s.length < cap then .ok s else .ub .outOfBounds

/-! ## Paths -/

/-- The last `/` of a string: what is before it and what is behind it (the loop of `lib/core/utils.c:624-627`). -/
def lastSlash : List UInt8 → Option (List UInt8 × List UInt8)
  | [] => none
  | b :: l =>
    match lastSlash l with
    | some (p, q) => some (b :: p, q)
    | none => if b = 47 then some ([], l) else none

/-- The expansion of `@lib` and `~` (`lib/core/utils.c:589-602`). -/
def expand (os : Os) (f : List UInt8) : Res (List UInt8) :=
  if f.take 4 = lit ['@', 'l', 'i', 'b'] then
    match os.getenv (lit ['M', 'N', 'M', 'L', '_', 'S', 'C', 'R', 'I', 'P', 'T', '_', 'P', 'A', 'T', 'H']) with
    | some p => copy pathMax (p ++ f.drop 4)
    | none => copy pathMax (os.home ++ lit ['/', 's', 'h', 'a', 'r', 'e', '/', 'm', 'n', 'm', 'l'] ++ f.drop 4)
  else
    match f with
    | 126 :: r =>
      match os.getenv (lit ['H', 'O', 'M', 'E']) with
      | some h => copy pathMax (h ++ r)
      | none => copy pathMax f
    | _ => copy pathMax f

/-- A path that is not absolute is put behind the current directory (`lib/core/utils.c:606-612`). -/
def absolute (chan : Bool) (cwd e : List UInt8) : Res (List UInt8) :=
  if e.head? ≠ some 47 ∧ chan = true then copy pathMax (cwd ++ 47 :: e) else .ok e

/-- `lisp_get_fullpath` (`lib/core/utils.c:580-640`); `chan` says whether there is an input channel. Without a `/` the NUL is written in front of the
buffer. -/
def fullpath (os : Os) (chan : Bool) (cwd f : List UInt8) : Res (Option (List UInt8)) := do
  let e ← expand os f
  let a ← absolute chan cwd e
  match os.realpath a with
  | some p => .ok (some p)
  | none =>
    match lastSlash a with
    | none => .ub .outOfBounds
    | some (d, b) =>
      match os.realpath d with
      | none => .ok none
      | some p => do
        let r ← copy pathMax (p ++ 47 :: b)
        .ok (some r)

/-- `dirname` for the paths that `realpath` makes: absolute, no `/` at the end except for the root. Other paths are not modelled. -/
def dirname (p : List UInt8) : Res (List UInt8) :=
  match lastSlash p with
  | none => .unsupported
  | some (d, b) =>
    if b = [] then (if d = [] then .ok p else .unsupported)
    else if d = [] then .ok [47]
    else if d.getLast? = some 47 then .unsupported
    else .ok d

/-! ## The search for a module -/

/-- `lisp_library_prefix` (`lib/core/module.c:26-38`). -/
def libraryPrefix (os : Os) : Res (List UInt8) :=
  copy pathMax (os.home ++ lit ['/', 'l', 'i', 'b', '/', 'm', 'n', 'm', 'l'])

/-- `lisp_usercache_prefix` (`lib/core/module.c:40-51`): `strcpy` from NULL if there is no `HOME`. -/
def usercachePrefix (os : Os) : Res (List UInt8) :=
  match os.getenv (lit ['H', 'O', 'M', 'E']) with
  | none => .ub .badPointer
  | some h => copy pathMax (h ++ lit ['/', '.', 'm', 'n', 'm', 'l'])

/-- `module_paths` (`lib/core/module.c:53-86`). -/
def modulePaths (os : Os) : Res (List UInt8) := do
  let p ← libraryPrefix os
  let u ← usercachePrefix os
  let s ← copy 8192 (p ++ 58 :: u)
  match os.getenv (lit ['M', 'N', 'M', 'L', '_', 'M', 'O', 'D', 'U', 'L', 'E', '_', 'P', 'A', 'T', 'H']) with
  | none => .ok s
  | some m => copy 8192 (s ++ 58 :: m)

/-- The file name of a module (`lib/core/module.c:108-123`): `lib`, the name, `.so` and a NUL are 7 bytes more than the name, the block has 6 bytes more. -/
def libName (os : Os) (name : List UInt8) : Res (List UInt8) :=
  copy (name.length + 6 + os.slack) (lit ['l', 'i', 'b'] ++ name ++ lit ['.', 's', 'o'])

/-- `module_find_at_path` (`lib/core/module.c:92-157`). -/
def findAtPath (os : Os) (dir name : List UInt8) : Res (Option (List UInt8)) :=
  match os.opendir dir with
  | none => .ok none
  | some names => do
    let l ← libName os name
    if l ∈ names then do
      let p ← copy pathMax (dir ++ 47 :: l)
      .ok (some p)
    else .ok none

/-- The block of `FOR_EACH_TOKEN` (`lib/core/module.c:172-174`) on all entries. -/
def findIn (os : Os) (name : List UInt8) : List (List UInt8) → Option (List UInt8) → Res (Option (List UInt8))
  | [], r => .ok r
  | _ :: ds, some p => findIn os name ds (some p)
  | d :: ds, none => do
    let r ← findAtPath os d name
    findIn os name ds r

/-- `module_find` (`lib/core/module.c:159-176`) on the entries of the search path. -/
def find (os : Os) (s : Sym) : Res (Option (List UInt8)) := do
  let ps ← modulePaths os
  let ds ← Path.forEachToken 58 ps
  findIn os s.name ds none

/-! ## Loading a module -/

/-- The interpreter: the evaluator's state, the cache `lisp->modules` (path and library by module name), the reference counts of the libraries, the
directories of the input channels (`lisp->ichan`, top first). -/
structure SSt where
  st : St
  cache : Sym → Option (List UInt8 × SoLib)
  refs : List UInt8 → Nat
  dirs : List Val

/-- The load function of an entry (`LISP_MODULE_SETUP`, `include/mnml/module.h:118-130`). -/
def loadEntry (e : List UInt8 × Val) (st : St) : Val × St :=
  (ofSym (Sym.ofBytes e.1), { st with globals := fun t => if t = Sym.ofBytes e.1 then some e.2 else st.globals t })

/-- `module_load_symbols_list` (`lib/core/module.c:242-291`). -/
def loadList (es : List (List UInt8 × Val)) : Val → St → Val × St
  | pair _ a d, st =>
    let (nxt, st) := loadList es d st
    match a with
    | sym _ s =>
      match es.find? (fun e => e.1 = s.name) with
      | some e =>
        let (v, st) := loadEntry e st
        (cons v nxt, st)
      | none => (nxt, st)
    | _ => (nxt, st)
  | _, st => (nil, st)

/-- The loop of `module_load_symbols` for T (`lib/core/module.c:306-332`): from the last entry to the first. -/
def loadAll : List (List UInt8 × Val) → St → Val × St
  | [], st => (nil, st)
  | e :: es, st =>
    let (r, st) := loadAll es st
    let (v, st) := loadEntry e st
    (cons v r, st)

/-- `module_load_symbols` (`lib/core/module.c:293-344`). -/
def loadSymbols (es : List (List UInt8 × Val)) (cell : Val) (st : St) : Val × St :=
  match cell with
  | nil => (nil, st)
  | tru => loadAll es st
  | pair .. => loadList es cell st
  | _ => (nil, st)

/-- `dlopen` counts the users of a library. -/
def addRef (p : List UInt8) (s : SSt) : SSt := { s with refs := fun q => if q = p then s.refs q + 1 else s.refs q }
/-- `dlclose`. -/
def dropRef (p : List UInt8) (s : SSt) : SSt := { s with refs := fun q => if q = p then s.refs q - 1 else s.refs q }

/-- `module_load_at_path` (`lib/core/module.c:182-216`). A library without `lisp_module_name` stays open. -/
def openLib (os : Os) (p name : List UInt8) (s : SSt) : Option SoLib × SSt :=
  match os.dlopen p with
  | none => (none, s)
  | some l =>
    let s := addRef p s
    match l.name with
    | none => (none, s)
    | some n => if n = name then (some l, s) else (none, dropRef p s)

/-- `module_load_binary` (`lib/core/module.c:346-406`). -/
def loadBinary (os : Os) (p : List UInt8) (name : Sym) (syms : Val) (s : SSt) : Val × SSt :=
  match s.cache name with
  | some (_, l) =>
    match l.entries with
    | none => (nil, s)
    | some es =>
      let (r, st) := loadSymbols es syms s.st
      (r, { s with st := st })
  | none =>
    match openLib os p name.name s with
    | (none, s) => (nil, s)
    | (some l, s) =>
      match l.entries with
      | none => (nil, dropRef p s)
      | some es =>
        let (r, st) := loadSymbols es syms s.st
        let s := { s with st := st }
        if r.isNil then (r, dropRef p s)
        else (r, { s with cache := fun t => if t = name then some (p, l) else s.cache t })

/-- The effects of the script layer. -/
def SM (α : Type) : Type := SSt → Res (α × SSt)

/-- `module_load` (`lib/core/module.c:471-511`). -/
def moduleLoad (os : Os) (cell : Val) : SM Val := fun s =>
  match cell.car with
  | sym _ name => do
    match ← find os name with
    | none => .ok (nil, s)
    | some p => .ok (loadBinary os p name cell.cdr s)
  | _ => .ok (nil, s)

/-! ## Scripts -/

/-- Is `e` a call of the native `load`? -/
def isLoad (s : SSt) : Val → Option Val
  | pair _ (sym _ f) args => if f = Native.load.name ∧ s.st.globals f = some Native.load.val then some args else none
  | _ => none

/-- The C string in a buffer of `cap` bytes that `lisp_make_cstring` fills with at most `len` characters. -/
def cbuffer (v : Val) (len cap : Nat) : Res (List UInt8) := do
  let (bytes, _) ← makeCString v len 0
  let b ← store cap bytes
  .ok (b.takeWhile (· ≠ 0))

/-- The directory of relative paths (`lib/core/utils.c:652-656`). -/
def curdir (os : Os) (s : SSt) : Res (List UInt8) :=
  match s.dirs with
  | [] =>
    match os.getenv (lit ['P', 'W', 'D']) with
    | none => .ub .badPointer
    | some p => copy pathMax p
  | d :: _ => cbuffer d pathMax pathMax

/-- The file that a name stands for, with its directory (`lib/core/utils.c:652-689`): `none` if one of the steps fails. -/
def openFile (os : Os) (f : List UInt8) (s : SSt) : Res (Option (List UInt8 × List UInt8)) := do
  let cwd ← curdir os s
  match ← fullpath os (!s.dirs.isEmpty) cwd f with
  | none => .ok none
  | some p => do
    let d ← dirname p
    match os.fopen p with
    | none => .ok none
    | some t => .ok (some (d, t))

/-- `PUSH_IO_CONTEXT` (`include/mnml/utils.h:135-142`): the directory becomes a string, its escapes are processed. -/
def push (d : List UInt8) (s : SSt) : SSt := { s with dirs := strVal (makeString d d.length) :: s.dirs }

mutual
/-- `lisp_eval` at top level, with `ev` for everything but the native `load`. -/
def evalTop (os : Os) (ev : Val → M Val) : Nat → Val → SM Val
  | 0, _ => fun _ => .oof
  | n + 1, e => fun s =>
    match isLoad s e with
    | some args => loadArgs os ev n args s
    | none => do
      let (v, st) ← ev e s.st
      .ok (v, { s with st := st })

/-- `lisp_load` (`lib/mnml/std/load.c:8-74`). -/
def loadArgs (os : Os) (ev : Val → M Val) : Nat → Val → SM Val
  | 0, _ => fun _ => .oof
  | n + 1, cell => fun s => do
    let (a, st) ← ev cell.car s.st
    let (r, s) ← loadOne os ev n a { s with st := st }
    if cell.cdr.isNil then .ok (r, s) else loadArgs os ev n cell.cdr s

/-- The switch of `lisp_load` (`lib/mnml/std/load.c:21-61`). -/
def loadOne (os : Os) (ev : Val → M Val) : Nat → Val → SM Val
  | 0, _ => fun _ => .oof
  | n + 1, a => fun s =>
    match a with
    | sym tc f => moduleLoad os (cons (sym tc f) tru) s
    | pair .. =>
      if a.isString then do
        let f ← cbuffer a pathMax (pathMax + 1)
        loadFile os ev n f s
      else moduleLoad os a s
    | _ => .ok (nil, s)

/-- `lisp_load_file` (`lib/core/utils.c:642-710`). -/
def loadFile (os : Os) (ev : Val → M Val) : Nat → List UInt8 → SM Val
  | 0, _ => fun _ => .oof
  | n + 1, f => fun s => do
    match ← openFile os f s with
    | none => .ok (nil, s)
    | some (d, t) => do
      let (r, s) ← loadLoop os ev n ⟨t, []⟩ nil (push d s)
      .ok (r, { s with dirs := s.dirs.tail })

/-- The loop of `lisp_load_file` (`lib/core/utils.c:698-702`) on the channel `c`; evaluation while reading (`` ` ``) is not supported. -/
def loadLoop (os : Os) (ev : Val → M Val) : Nat → IChan → Val → SM Val
  | 0, _, _ => fun _ => .oof
  | n + 1, c, res => fun s => do
    let (v, c) ← readCh (fun _ => .unsupported) n c
    match v with
    | none => .ok (res, s)
    | some e => do
      let (r, s) ← evalTop os ev n e s
      loadLoop os ev n c r s
end

/-! ## The command line -/

/-- The loop of `mnml -e` (`bin/mnml.c:358-369`): it ends at the first value that is NIL, or when there is none left. -/
def evalLoop (os : Os) (ev : Val → M Val) (n : Nat) : List Val → Val → SM Val
  | [], res => fun s => .ok (res, s)
  | v :: vs, res => fun s =>
    if v.isNil then .ok (res, s)
    else do
      let (r, s) ← evalTop os ev n v s
      evalLoop os ev n vs r s

/-- `mnml -e EXPR` (`bin/mnml.c:342-369`): the text is parsed as a whole, what is incomplete at its end is dropped. -/
def evalString (os : Os) (ev : Val → M Val) (n : Nat) (expr : List UInt8) : SM Val := fun s => do
  let st ← lexerParse (fun _ => .unsupported) .init expr
  evalLoop os ev n st.ps.vals nil s

/-- What the C code writes itself (`fwrite` to `stdout`). -/
def say (t : List UInt8) (s : SSt) : SSt := { s with st := { s.st with out := s.st.out ++ t } }

/-- The prompt: `run` with `stage_prompt` and `stage_newline` (`bin/mnml.c:33-77`). Before each read `": "` is written if no value is waiting in
the buffer of the channel; after each evaluation `"> "`, the text of the value and a newline. The output channel is `stdout` throughout, so that
everything appears in the order in which it is written. Not modelled: signals (`keep_running`) and the recovery from syntax errors. -/
def replLoop (os : Os) (ev : Val → M Val) : Nat → IChan → SM Val
  | 0, _ => fun _ => .oof
  | n + 1, c => fun s => do
    let s := if c.buf.isEmpty then say [58, 32] s else s
    let (v, c) ← readCh (fun _ => .unsupported) n c
    match v with
    | none => .ok (nil, s)
    | some e => do
      let (r, s) ← evalTop os ev n e s
      let t ← Print.prin r true
      replLoop os ev n c (say [10] (say t (say [62, 32] s)))

/-- A string made from a C string. -/
def cstrVal (s : List UInt8) : Val := strVal (makeString s s.length)

/-- Store a global variable unless the value is NIL (`bin/mnml.c:117-127`). -/
def setVar (name : List Char) (v : Val) (s : SSt) : SSt :=
  if v.isNil then s
  else { s with st := { s.st with globals := fun t => if t = symLit name then some v else s.st.globals t } }

/-- `lisp_build_argv` (`bin/mnml.c:106-128`). -/
def buildArgv (args : List (List UInt8)) (s : SSt) : SSt :=
  setVar ['A', 'R', 'G', 'V'] (args.foldl (fun l a => Val.append l (cstrVal a)) nil) s

/-- An entry of the environment at its first `=` (`strstr`). -/
def splitEq : List UInt8 → Option (List UInt8 × List UInt8)
  | [] => none
  | b :: l => if b = 61 then some ([], l) else (splitEq l).map fun q => (b :: q.1, q.2)

/-- The loop of `lisp_build_env` (`bin/mnml.c:194-203`): entries without `=` and without value are skipped. -/
def envPairs : List (List UInt8) → Val → Val
  | [], res => res
  | e :: es, res =>
    match splitEq e with
    | some (k, b :: v) => envPairs es (Val.append res (cons (cstrVal k) (cstrVal (b :: v))))
    | _ => envPairs es res

/-- `lisp_build_env` (`bin/mnml.c:186-215`). -/
def buildEnv (environ : List (List UInt8)) (s : SSt) : SSt := setVar ['E', 'N', 'V'] (envPairs environ nil) s

/-- `module_load_defaults` (`lib/core/module.c:517-534`). -/
def loadDefaults (os : Os) : SM Val :=
  moduleLoad os (cons (ofSym (symLit ['s', 't', 'd']))
    (ofList [ofSym Native.def_.name, ofSym Native.quote.name, ofSym Native.load.name]))

/-- The strings that the build puts into the program (`bin/mnml.c:138-176`). -/
structure Build where
  version : List UInt8
  root : List UInt8
  compver : List UInt8
  compid : List UInt8
  buildts : List UInt8

/-- `lisp_build_config` (`bin/mnml.c:130-184`). -/
def buildConfig (b : Build) (s : SSt) : SSt :=
  let entry := fun (k : List Char) (v : List UInt8) => cons (ofSym (symLit k)) (cstrVal v)
  setVar ['C', 'O', 'N', 'F', 'I', 'G'] (ofList
    [entry ['B', 'U', 'I', 'L', 'D', '_', 'T', 'S'] b.buildts, entry ['C', 'O', 'M', 'P', 'I', 'D'] b.compid,
      entry ['C', 'O', 'M', 'P', 'V', 'E', 'R'] b.compver, entry ['P', 'R', 'E', 'F', 'I', 'X'] b.root,
      entry ['V', 'E', 'R', 'S', 'I', 'O', 'N'] b.version]) s

/-- What the program is called with: options (`-b`, `-e`), the arguments after them, the environment, the directory and what can be read from the
standard input. -/
structure Call where
  bare : Bool
  expr : Option (List UInt8)
  args : List (List UInt8)
  environ : List (List UInt8)
  cwd : List UInt8
  input : List UInt8

/-- The state before anything is loaded (`module_init`, `lib/core/module.c:412-418`); that the cache directory is usable is assumed. -/
def startSt : SSt := ⟨⟨fun _ => none, []⟩, fun _ => none, fun _ => 0, []⟩

/-- The preparations of `main` (`bin/mnml.c:322-327`). -/
def prepare (os : Os) (b : Build) (c : Call) : Res SSt :=
  if c.bare then .ok startSt
  else do
    let (_, s) ← loadDefaults os startSt
    .ok (buildEnv c.environ (buildConfig b (buildArgv c.args s)))

/-- `main` (`bin/mnml.c:322-387`) from the preparations to the exit status; the first argument is the file to run, if there is one. Without
file and expression it is the prompt. Not modelled: signals, the options `-d`, `-h`, `-v`. -/
def main (os : Os) (ev : Val → M Val) (n : Nat) (b : Build) (c : Call) : Res (Int × Val × SSt) := do
  let s ← prepare os b c
  let (r, s) ← match c.args, c.expr with
    | f :: _, _ => loadFile os ev n f s
    | [], some e => do
      let (r, s) ← evalString os ev n e (push c.cwd s)
      .ok (r, { s with dirs := s.dirs.tail })
    | [], none => do
      let (r, s) ← replLoop os ev n ⟨c.input, []⟩ (push c.cwd s)
      .ok (r, { s with dirs := s.dirs.tail })
  .ok (if r.isNil then -1 else 0, r, s)

end Module
end Mnml
