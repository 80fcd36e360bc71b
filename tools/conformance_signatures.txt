import Verif
import Lean
open Lean Meta
set_option pp.fieldNotation false
run_cmd do
  let env ← getEnv
  let mut out := ""
  for (n, ci) in env.constants.map₁.toList do
    let some i := env.getModuleIdxFor? n | continue
    let m := (env.header.moduleNames[i.toNat]!).toString
    unless m.startsWith "Verif.Model" do continue
    if n.isInternal then continue
    match ci with
    | .defnInfo _ | .ctorInfo _ =>
      let s := n.toString
      if (s.splitOn "noConfusion").length > 1 || (s.splitOn "casesOn").length > 1 || (s.splitOn "recOn").length > 1 then continue
      let t ← Elab.Command.liftTermElabM (do let f ← ppExpr ci.type; pure (f.pretty 100000))
      let nc := isNoncomputable env n
      out := out ++ s ++ "\t" ++ (if nc then "NC" else "") ++ "\t" ++ t ++ "\n"
    | _ => pure ()
  IO.FS.writeFile "SIGS_OUT" out
