import Verif
import Lean
open Lean Elab Command
#eval show CommandElabM Unit from do
  let env ← getEnv
  let mut tbl : Std.HashMap String (Array String) := {}
  for (n, _) in env.constants.toList do
    if (`Qesa.Props).isPrefixOf n && (n.getString!.startsWith "C") && (n.getString!.length > 3) && (n.getString!.toList[1]!).isDigit && !n.isInternal then
      let a ← collectAxioms n
      let k := String.intercalate ", " ((a.toList.map Name.toString).mergeSort (· ≤ ·))
      tbl := tbl.insert k ((tbl.getD k #[]).push n.getString!)
  for (k, v) in tbl.toList do
    IO.println s!"[{k}] {v.size}: {v.toList.mergeSort (· ≤ ·)}"
