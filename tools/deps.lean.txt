import Lean
import Verif
open Lean
partial def collect (env : Environment) (n : Name) (seen : NameSet) : NameSet :=
  if seen.contains n then seen else
  if !(`Verif).isPrefixOf n then seen else
  match env.find? n with
  | none => seen
  | some ci =>
    let seen := seen.insert n
    let used := ci.type.getUsedConstants ++ (match ci.value? (allowOpaque := true) with | some v => v.getUsedConstants | none => #[])
    used.foldl (fun s m => collect env m s) seen

#eval show CoreM Unit from do
  let env ← getEnv
  let h ← IO.FS.Handle.mk "/tmp/seed/deps.txt" .write
  for (n, ci) in env.constants.map₁.toList do
    if (`Verif.Props).isPrefixOf n && (ci matches .thmInfo _) && !n.isInternal then
      let s := collect env n {}
      h.putStrLn (toString n ++ "\t" ++ " ".intercalate (s.toList.map toString))
