import Verif
import Lean
open Lean
run_cmd do
  let env ← getEnv
  let mut out : Array String := #[]
  for (n, ci) in env.constants.map₁.toList do
    if (`Verif).isPrefixOf n || (toString n).startsWith "_private.Verif" then
      let mut used := ci.type.getUsedConstants
      if let some v := ci.value? (allowOpaque := true) then used := used ++ v.getUsedConstants
      let us := used.toList.filter fun m => (`Verif).isPrefixOf m || (toString m).startsWith "_private.Verif"
      let isT := match ci with | .thmInfo _ => "T" | _ => "D"
      out := out.push (isT ++ "\t" ++ toString n ++ "\t" ++ " ".intercalate (us.eraseDups.map toString))
  IO.FS.writeFile "/tmp/deps.txt" ("\n".intercalate out.toList)
