import Verif.Model.Resolve
/-!
# Declarations of functions (`src/core/type_.rs:82-118`)

In a debug build `Func::new` checks what the rest of the code relies on: that there is at most one variadic parameter, that it is the last one, and that a
function of raw tokens has no other parameter.
-/

namespace Verif

/-- The first assertion of `Func::new`, `src/core/type_.rs:84-92`. -/
def oneVariadic (args : List Ty) : Bool := decide ((args.filter Ty.isVariadic).length ≤ 1)

/-- The second assertion, lines 93-101. `arg_types.len() - 1` is not computed for an empty list. -/
def variadicLast (args : List Ty) : Bool :=
  match args.findIdx? Ty.isVariadic with
  | none => true
  | some i => i == args.length - 1

/-- The third assertion, lines 102-110. -/
def rawAlone (args : List Ty) : Bool := if args.any (· == .raw) then args.length == 1 else true

/-- `Func::new`, `src/core/type_.rs:83-118`, in a debug build; the id is drawn there. -/
def Func.declare (id : Nat) (name : Str) (args : List Ty) (out : Ty) (impl : Ext → Nat → List VKind → Res VKind) : Res Func :=
  if oneVariadic args && variadicLast args && rawAlone args then .ok ⟨id, name, args, out, impl⟩ else .panic

end Verif
