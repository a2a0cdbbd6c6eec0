import Lean
import Verif
open Lean
/- Prints, for every constant of the project, its module and the project constants it uses directly (statement and proof). -/
def main : IO Unit := do
  initSearchPath (← findSysroot)
  let env ← importModules #[{module := `Verif}] {}
  let mods := env.header.moduleNames
  let isV (n : Name) : Bool := match env.getModuleIdxFor? n with
    | some i => (`Verif).isPrefixOf (mods[i.toNat]!)
    | none => false
  for (n, c) in env.constants.map₁.toList do
    if isV n then
      let used := c.type.getUsedConstants ++ (match c.value? (allowOpaque := true) with | some v => v.getUsedConstants | none => #[])
      let i := (env.getModuleIdxFor? n).get!
      let us := (used.filter isV).toList.map toString
      IO.println s!"{n}\t{mods[i.toNat]!}\t{" ".intercalate us}"
