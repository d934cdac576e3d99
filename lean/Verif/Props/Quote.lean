import Verif.Spec.Quote
import Verif.Props.Message
/-!
# C68: exactly how calls are quoted

The message of a signature error ends with the call. What it shows of the call is determined here from the tokens of the input, for all calls.
-/

namespace Verif.Props
open Verif Spec

theorem print_many (E : Ext) (id : Nat) (n : Str) {args : List Expr} (r : Option (Nat × Toks)) (hl : args.length ≠ 1) :
    Text.print E (exprText (.call id n args r)) = n ++ ['('] ++ [',', ' '].intercalate ((exprTexts args).map (Text.print E)) ++ [')'] := by
  have : exprText (.call id n args r) = [.str n, .str c! "("] ++ [.str c! ", "].intercalate (exprTexts args) ++ [.str c! ")"] := by
    match args, r, hl with
    | [], _, _ => simp only [exprText]
    | [e], none, hl => exact (hl rfl).elim
    | [e], some _, hl => exact (hl rfl).elim
    | _ :: _ :: _, _, _ => simp only [exprText]
  rw [this, print_append, print_append, print_intercalate]
  simp [Text.print]

theorem readsPieces_length {known : Str → Bool} {Y : Syn} : ∀ {ps : List Toks} {es : List Expr}, ReadsPieces known Y ps es → es.length = ps.length
  | _, _, .nil => rfl
  | _, _, .cons _ hs => by simp [readsPieces_length hs]

mutual
/-- What is shown is the text of the expression. -/
theorem shows_of_reads (E : Ext) {known : Str → Bool} {Y : Syn} : ∀ {ts : Toks} {e : Expr} {rest : Toks}, ReadsExpr known Y ts e rest →
    Shows E.render known Y ts rest (Text.print E (exprText e))
  | ts, _, rest, .call (n := n) (raw := raw) (args := args) id rid h ha => by
    have ih := showsAll_of_reads E ha
    have hlen := readsPieces_length ha
    by_cases hl : args.length = 1
    · match args, hl with
      | [a], _ =>
        generalize hps : pieces raw = ps at ha
        cases ha with
        | cons h1 h2 =>
          cases h2
          simpa [exprText, Text.print] using Shows.one (render := E.render) h hps h1
    · rw [print_many E id n _ hl]
      exact .several h (by omega) ih
  | ts, _, rest, .dropped (n := n) id rid h hp he => by
    rw [print_many E id n _ (by simp)]
    simpa [exprTexts] using Shows.dropped (render := E.render) h hp ⟨_, _, _, he⟩
  | ts, _, rest, .value (v := v) id hn h => by
    rw [exprText]
    cases v with
    | litStr r s => simpa [shownValue, Text.print] using Shows.str (render := E.render) hn h
    | litInt i => simpa [shownValue, Text.print] using Shows.int (render := E.render) hn h
    | ident s => simpa [shownValue, Text.print] using Shows.name (render := E.render) hn h
    | _ => simpa [shownValue, Text.print] using Shows.code (render := E.render) hn h (by simp) (by simp) (by simp)
theorem showsAll_of_reads (E : Ext) {known : Str → Bool} {Y : Syn} : ∀ {ps : List Toks} {es : List Expr}, ReadsPieces known Y ps es →
    ShowsAll E.render known Y ps ((exprTexts es).map (Text.print E))
  | _, _, .nil => .nil
  | _, _, .cons h hs => .cons (shows_of_reads E h) (showsAll_of_reads E hs)
end

mutual
/-- And nothing else is shown. -/
theorem reads_of_shows (E : Ext) {known : Str → Bool} {Y : Syn} : ∀ {ts rest : Toks} {t : Str}, Shows E.render known Y ts rest t →
    ∃ e, ReadsExpr known Y ts e rest ∧ t = Text.print E (exprText e)
  | ts, rest, _, .one (n := n) (raw := raw) (e := e) h hp he =>
    ⟨.call 0 n [e] (some (0, raw)), .call 0 0 h (by rw [hp]; exact .cons he .nil), by simp [exprText, Text.print]⟩
  | ts, rest, _, .several (n := n) (raw := raw) h hp ha => by
    obtain ⟨es, h1, rfl⟩ := reads_of_showsAll E ha
    have hl := readsPieces_length h1
    exact ⟨.call 0 n es (some (0, raw)), .call 0 0 h h1, by rw [print_many E 0 n _ (by omega)]⟩
  | ts, rest, _, .dropped (n := n) (raw := raw) h hp ⟨_, _, _, he⟩ =>
    ⟨.call 0 n [] (some (0, raw)), .dropped 0 0 h hp he, by rw [print_many E 0 n _ (by simp)]; simp [exprTexts]⟩
  | ts, rest, _, .str hn h => ⟨_, .value 0 hn h, by simp [exprText, shownValue, Text.print]⟩
  | ts, rest, _, .int hn h => ⟨_, .value 0 hn h, by simp [exprText, shownValue, Text.print]⟩
  | ts, rest, _, .name hn h => ⟨_, .value 0 hn h, by simp [exprText, shownValue, Text.print]⟩
  | ts, rest, _, .code (v := v) hn h hs hi hm => by
    refine ⟨_, .value 0 hn h, ?_⟩
    cases v with
    | litStr r s => exact (hs _ _ rfl).elim
    | litInt i => exact (hi _ rfl).elim
    | ident s => exact (hm _ rfl).elim
    | _ => simp [exprText, shownValue, Text.print]
theorem reads_of_showsAll (E : Ext) {known : Str → Bool} {Y : Syn} : ∀ {ps : List Toks} {texts : List Str}, ShowsAll E.render known Y ps texts →
    ∃ es, ReadsPieces known Y ps es ∧ texts = (exprTexts es).map (Text.print E)
  | _, _, .nil => ⟨[], .nil, rfl⟩
  | _, _, .cons h hs => by
    obtain ⟨e, h1, h2⟩ := reads_of_shows E h
    obtain ⟨es, h3, h4⟩ := reads_of_showsAll E hs
    exact ⟨e :: es, .cons h1 h3, by simp [exprTexts, h2, h4]⟩
end

/-- **C68**, exactly: the message of a call that fits no overload ends with the text which `Shows` gives for the tokens of the call, and `Shows` gives no other. -/
theorem C68_exact (E : Ext) {known : Str → Bool} {Y : Syn} {ts rest : Toks} {id : Nat} {n : Str} {args : List Expr} {r : Option (Nat × Toks)}
    (h : ReadsExpr known Y ts (.call id n args r) rest) (sig syn t : Str) :
    Err.message E syn (.signature sig (showCall n args r)) = c! "SignatureError: function " ++ sig ++
      c! " has been called with incompatible arguments: " ++ t ↔ Shows E.render known Y ts rest t := by
  rw [showCall_eq id]
  simp only [Err.message]
  constructor
  · intro e
    rw [← List.append_cancel_left e]
    exact shows_of_reads E h
  · intro hs
    obtain ⟨e, h1, rfl⟩ := reads_of_shows E hs
    have := ((parseE_exact Y known (fun x => x) _).unique (Nat.le_refl _) h h1).2
    rw [← exprText_erase e, this, exprText_erase]

/-- `upper(0x10, "a\"")` is shown as `upper(16, "a"")`, `lower(upper(a), b)` as it is written, and `upper(lower(a) b, c)` as `upper()`. -/
example : Shows Ext.demo.render isBuiltin demoWorld.Y [id' "upper", paren [.lit (.int c! "0x10" 16), comma, str' c! "\"a\\\"\"" c! "a\""]] []
    c! "upper(16, \"a\"\")" := by
  have h := (parseE_ok demoWorld.Y isBuiltin (fun k => k) [id' "upper", paren [.lit (.int c! "0x10" 16), comma, str' c! "\"a\\\"\"" c! "a\""]] 0).cases
  rcases h with ⟨e, r, k', h1, g⟩ | ⟨_, _, _, h⟩
  · cases h1.symm.trans (rfl : parseE demoWorld.Y isBuiltin (fun k => k) [id' "upper", paren [.lit (.int c! "0x10" 16), comma, str' c! "\"a\\\"\"" c! "a\""]] 0 = _)
    exact shows_of_reads Ext.demo g.reads
  · exact h.elim
example : Shows Ext.demo.render isBuiltin demoWorld.Y [id' "upper", paren [id' "lower", paren [id' "a"], id' "b", comma, id' "c"]] [] c! "upper()" := by
  have h := (parseE_ok demoWorld.Y isBuiltin (fun k => k) [id' "upper", paren [id' "lower", paren [id' "a"], id' "b", comma, id' "c"]] 0).cases
  rcases h with ⟨e, r, k', h1, g⟩ | ⟨_, _, _, h⟩
  · cases h1.symm.trans (rfl : parseE demoWorld.Y isBuiltin (fun k => k) [id' "upper", paren [id' "lower", paren [id' "a"], id' "b", comma, id' "c"]] 0 = _)
    exact shows_of_reads Ext.demo g.reads
  · exact h.elim

end Verif.Props
