import Verif.Spec.Depth
/-! # Functions that are not named in an invocation -/

namespace Verif.Spec
open Verif

mutual
/-- The names in a token, except inside braces. -/
def outerNamesTok : Tok → List Str
  | .ident n => [n]
  | .group .brace _ => []
  | .group _ ts => outerNames ts
  | _ => []
/-- The names in the tokens, except inside braces. -/
def outerNames : Toks → List Str
  | [] => []
  | t :: ts => outerNamesTok t ++ outerNames ts
end

/-- `Reads`, for a crate with the functions `T`. -/
def ReadsWith (T : Str → Option (List Func)) (W : World) : Invocation → PAst → Prop
  | .compose ts, a => ReadsInput (fun n => (T n).isSome) W.Y ts a
  | .composeIdents ts, a => ReadsInput (fun n => (T n).isSome) W.Y ts a
  | .composeItem attr item, a => ReadsAttr (fun n => (T n).isSome) W.Y attr { a with block := [] } ∧ W.Y.parseBlock item = some a.block

/-- What comes out of an invocation in a crate with the functions `T`: what it expands to, or an error if it cannot be read. The hashes are those for `seed`, and
warnings start with `pre`. -/
inductive ResultWith (T : Str → Option (List Func)) (W : World) (seed : Nat) (pre : Str) (inv : Invocation) : Output → Prop
  | read (a : PAst) (h : ReadsWith T W inv a) :
      ResultWith T W seed pre inv (.ofRes (expansion W ⟨seed, T⟩ (serviceFor pre (withSemicolons a.spec)) (tree a)))
  | unread (h : ∀ a, ¬ ReadsWith T W inv a) : ResultWith T W seed pre inv (.compileError .parse)

end Verif.Spec
