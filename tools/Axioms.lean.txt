import Verif
import Lean
open Lean
#eval show CoreM Unit from do
  let names := (← IO.FS.lines "/tmp/dep/names.txt").toList.map String.toName
  let env ← getEnv
  let h ← IO.FS.Handle.mk "/tmp/dep/ax.txt" .write
  for n in names do
    let ax ← collectAxioms n
    let m := match env.getModuleIdxFor? n with | some i => toString env.header.moduleNames[i.toNat]! | none => "?"
    h.putStrLn (toString n ++ " " ++ m ++ " " ++ " ".intercalate (ax.toList.map toString))
