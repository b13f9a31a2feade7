import Verif.Basic
import Verif.Slab
import Verif.PropSlab
import Verif.Val
import Verif.PropVal
import Verif.Str
import Verif.PropStr
import Verif.Print
import Verif.PropPrint
import Verif.Env
import Verif.PropEnv
import Verif.Tails
import Verif.Eval
import Verif.Dsl
import Verif.EvalMono
import Verif.EvalSem
import Verif.Calls
import Verif.PropEval
import Verif.PropCtl
import Verif.PropArith
import Verif.PropList
import Verif.PropFun
import Verif.PropTail
import Verif.PropTailPos
import Verif.Tree
import Verif.TreeRep
import Verif.TreeRot
import Verif.TreeFix
import Verif.TreeAdd
import Verif.TreeSeek
import Verif.TreeOps
import Verif.TreeIns
import Verif.PropTree
import Verif.PropTreeBal
import Verif.TreeRem
import Verif.PropTreeRem
import Verif.PropTreeNext
import Verif.Heap
import Verif.HeapEval
import Verif.HeapInv
import Verif.HeapRel
import Verif.HeapWp
import Verif.HeapRead
import Verif.HeapPrim
import Verif.HeapTail
import Verif.HeapOps
import Verif.HeapLoc
import Verif.HeapKeep
import Verif.HeapGuard
import Verif.HeapSpec
import Verif.HeapOwn
import Verif.PropHeap
import Verif.PropForged
import Verif.PropHeapSet
import Verif.Refine
import Verif.RefineStep
import Verif.RefineGlob
import Verif.RefineList
import Verif.RefineStr
import Verif.RefineEval
import Verif.RefineNat
import Verif.RefineTop
import Verif.Relax
import Verif.PropRefine
import Verif.PropLeak
import Verif.PropOut
import Verif.Lex
import Verif.Parse
import Verif.LexSem
import Verif.PropRead
import Verif.Read
import Verif.ReadSem
import Verif.Chan
import Verif.PropChan
import Verif.Path
import Verif.Frame
import Verif.LibSem
import Verif.Lib
import Verif.PropFold
import Verif.PropLib
import Verif.PropAssoc
import Verif.PropTrim
import Verif.PropNum
import Verif.PropSort
import Verif.Module
import Verif.PropPath
import Verif.PropModule
import Verif.ScriptSem
import Verif.PropScript
import Verif.PropMain
import Verif.LexFast
import Verif.LibText
import Verif.LibLoad
import Verif.PropLoad
import Verif.PropSrc
import Verif.PropMore
import Verif.PropScan
import Verif.Depth
import Verif.PropDepth
import Verif.PropDepthLib
import Verif.Rename
import Verif.Follow
import Verif.Capped
import Verif.PropReuse
import Verif.PropRepl
import Verif.Unix
import Verif.PropUnix
import Verif.PropParseErr
import Verif.PropSlabinfo
import Verif.LibTerm
import Verif.PropTerm
import Verif.PropFindl
import Verif.PropTypes
import Verif.PropMark
import Verif.PropRefcount
import Verif.PropRefs
import Verif.Opts
import Verif.PropOpts
import Verif.PropSym
import Verif.PropUnixRefine
import Verif.PropHeapUnix
import Verif.PropCpsDen
import Verif.PropCps
import Verif.PropRun
import Verif.PropArgs
import Verif.LibTest
import Verif.PropTest
import Lean.Elab.Command
import Lean.Util.CollectAxioms

/-!
# The axioms behind the property theorems

Goes through every theorem of the project and fails when one depends on an axiom other than the three of Lean's standard
logic; prints how many of the property theorems (`C01_...`, `C02_...`, ...) depend on which of them.
-/

open Lean Elab Command

/-- Whether the last component of a name looks like the name of a property theorem. -/
def isPropertyName (n : Name) : Bool :=
  match n with
  | .str _ s => match s.toList with
    | 'C' :: a :: b :: '_' :: _ => a.isDigit && b.isDigit
    | _ => false
  | _ => false

run_cmd do
  let env ← getEnv
  let mut table : List (List Name × Nat) := []
  let mut bad : List Name := []
  for (n, c) in env.constants.map₁.toList do
    let some i := env.getModuleIdxFor? n | continue
    unless (env.header.moduleNames[i.toNat]!).getRoot == `Verif do continue
    match c with
    | .thmInfo _ =>
      let ax := (← collectAxioms n).toList.mergeSort fun a b => a.toString ≤ b.toString
      unless ax.all [``propext, ``Quot.sound, ``Classical.choice].contains do bad := n :: bad
      if isPropertyName n then
        table := match table.find? (·.1 == ax) with
          | some (_, k) => (ax, k + 1) :: table.filter (·.1 != ax)
          | none => (ax, 1) :: table
    | .axiomInfo _ => bad := n :: bad
    | _ => pure ()
  unless bad.isEmpty do throwError "axioms: {bad}"
  for (ax, k) in table do logInfo m!"{k} property theorems depend on {ax}"
