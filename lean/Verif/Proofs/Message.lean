import Verif.Spec.Message
import Verif.Model.Error
import Verif.Proofs.FormatString
/-! # Texts of signatures and calls -/

namespace Verif
open Spec

theorem show_eq_typeName (t : Ty) : t.show = typeName t := by
  induction t with
  | variadic t ih => simp only [Ty.show, typeName, ih]
  | _ => rfl

theorem joinTexts_eq : ∀ ts : List Text, joinTexts ts = [Piece.str c! ", "].intercalate ts
  | [] => rfl
  | [s] => by simp [joinTexts]
  | s :: t :: ss => by
    rw [joinTexts, joinTexts_eq (t :: ss)]
    · simp [List.intercalate_cons_cons]
    · simp

theorem signature_eq_sigText (f : Func) : f.signature = sigText f := by
  have : Ty.show = typeName := funext show_eq_typeName
  rw [Func.signature, sigText, joinWith_eq, this]

theorem signature_ne_nil (f : Func) : f.signature ≠ [] := by simp [Func.signature]

theorem foldSigs (sep : Str) : ∀ (ss : List Str) (acc : Str), acc ≠ [] → (∀ s ∈ ss, s ≠ []) →
    ss.foldl (fun acc sig => if acc.isEmpty then sig else acc ++ sep ++ sig) acc = sep.intercalate (acc :: ss)
  | [], acc, _, _ => by simp
  | s :: ss, acc, ha, hs => by
    rw [List.foldl_cons, if_neg (by simpa using ha), foldSigs sep ss _ (by simp [ha]) (fun x hx => hs x (List.mem_cons_of_mem _ hx))]
    rw [List.intercalate_cons_cons]
    cases ss with
    | nil => simp
    | cons t ts => simp [List.intercalate_cons_cons]

theorem prettySigs_eq (fs : List Func) : prettySigs fs = sigsText fs := by
  have : Func.signature = sigText := funext signature_eq_sigText
  rw [prettySigs, sigsText, ← this]
  cases fs with
  | nil => rfl
  | cons f fs =>
    rw [List.map_cons, List.foldl_cons, List.isEmpty_nil, if_pos rfl]
    exact foldSigs _ _ _ (signature_ne_nil f) (by simp [signature_ne_nil])

theorem show_eq_shownValue (k : VKind) : k.show = shownValue k := by cases k <;> rfl

theorem showL_length : ∀ es : List Expr, (Expr.showL es).length = es.length
  | [] => rfl
  | _ :: es => by simp [Expr.showL, showL_length es]

mutual
theorem show_eq_exprText : ∀ e : Expr, e.show = exprText e
  | .value _ k => show_eq_shownValue k
  | .call _ n args raw => by
    rw [Expr.show]
    have ht := showL_eq_exprTexts args
    match args, raw with
    | [e], some (i, ts) => rfl
    | [], some (i, ts) => rfl
    | e :: e' :: es, some (i, ts) => simp only [exprText, showArgs, ht, joinTexts_eq]; rfl
    | [], none => simp only [exprText, showArgs, ht, joinTexts_eq]
    | [e], none => simp only [exprText, showArgs, ht, joinTexts_eq]
    | e :: e' :: es, none => simp only [exprText, showArgs, ht, joinTexts_eq]
theorem showL_eq_exprTexts : ∀ es : List Expr, Expr.showL es = exprTexts es
  | [] => rfl
  | e :: es => by rw [Expr.showL, exprTexts, show_eq_exprText e, showL_eq_exprTexts es]
end

theorem showCall_eq (id : Nat) (n : Str) (args : List Expr) (raw : Option (Nat × Toks)) :
    showCall n args raw = exprText (.call id n args raw) := by
  rw [← show_eq_exprText, Expr.show, showCall]

theorem blurE_cases {α : Type} {a b : Except Err α} (h : blurE a = blurE b) :
    (∃ p, a = .ok p ∧ b = .ok p) ∨ ∃ x y, a = .error x ∧ b = .error y ∧ blur x = blur y := by
  cases a <;> cases b <;> simp [blurE] at h ⊢ <;> first | exact h | exact h.symm

theorem blurR_cases {α : Type} {a b : Res α} (h : blurR a = blurR b) :
    a = b ∨ ∃ x y, a = .err x ∧ b = .err y ∧ blur x = blur y := by
  cases a <;> cases b <;> simp [blurR] at h ⊢ <;> first | exact h | exact .inr h

theorem blur_refusal (fs : List Func) (e e' : Expr) : blur (refusal fs e) = blur (refusal fs e') := rfl

/-- The error of the code for a call that fits no overload. -/
theorem refusal_eq {env : Env} {name : Str} {fs : List Func} (h : env.funcs name = some fs) (id : Nat) (args : List Expr)
    (raw : Option (Nat × Toks)) :
    Err.signature (env.prettySig name) (showCall name args raw) = refusal fs (.call id name args raw) := by
  rw [refusal, Env.prettySig, h, ← prettySigs_eq, showCall_eq id]
  rfl

end Verif
