import Verif.Proofs.Subst
import Verif.Model.Demo
/-!
# Properties C11–C16: substitution in one piece of code, and the token walker

`E` is the external code, `valid` says whether a token sequence parses as the kind of node at hand, `subs` are the alias
values.
-/

namespace Verif.Props
open Verif Spec

variable {E : Ext} {valid : Toks → Bool} {subs : Subs}

/-- The tokens of the value of an alias. -/
def valueToks (subs : Subs) (n : Str) : Option Toks := (List.lookup n subs).map codeOf

/-- The text of the value of an alias, as inserted in strings. -/
def valueText (E : Ext) (subs : Subs) (n : Str) : Option Str := (List.lookup n subs).map (stringForm E)

theorem codeOf_eq : codeOf = VKind.toTokens := by
  funext v
  cases v with
  | litInt i => obtain ⟨_ | _, _, _⟩ := i <;> rfl
  | _ => rfl

theorem valueToks_eq : valueToks subs = lookToks subs := by
  funext n; simp [valueToks, lookToks, get_eq_lookup, codeOf_eq]

theorem valueText_eq : valueText E subs = fun n => (subs.get n).map (VKind.format E) := by
  funext n
  rw [valueText, get_eq_lookup, funext (stringForm_eq E)]

/-- `fmt` formats every string by the rules of placeholders. -/
def FormatsAll (E : Ext) (subs : Subs) (fmt : Str → Str) : Prop :=
  ∀ s, Formats E.toCharClass (valueText E subs) s (fmt s)

/-- The plainly spelled literal with the formatted value. -/
def litWith (E : Ext) (fmt : Str → Str) (v : Str) : Lit := .str (E.strRepr (fmt v)) (fmt v)

theorem formatsAll_fmtStr : FormatsAll E subs (fmtStr E subs) := by
  intro s; rw [valueText_eq]; exact formats_total _ s (Nat.le_refl _)

theorem fmt_unique {fmt : Str → Str} (h : FormatsAll E subs fmt) : fmt = fmtStr E subs := by
  funext s
  have := formats_sound (h s)
  rw [← this, valueText_eq]; rfl

theorem litWith_eq {fmt : Str → Str} (h : FormatsAll E subs fmt) : litWith E fmt = strLit E subs := by
  rw [fmt_unique h]; rfl

/-- The formatting function exists (and is unique), so that the hypotheses `FormatsAll` below can be met. -/
theorem formatting_exists (E : Ext) (subs : Subs) : ∃ fmt, FormatsAll E subs fmt := ⟨_, formatsAll_fmtStr⟩

/-- **C11**: the result of a successful substitution is the structural map over the token tree. -/
theorem C11_structural_map {fmt : Str → Str} (hf : FormatsAll E subs fmt) {node out : Toks}
    (h : substituteIdents E valid subs node = .ok out) :
    out = substAll (valueToks subs) (litWith E fmt) node := by
  rw [litWith_eq hf, valueToks_eq]
  exact (substituteIdents_ok h).1

/-- **C11**, what is put in: the code for the value. -/
theorem C11_code (v : VKind) : v.toTokens = codeOf v := by rw [codeOf_eq]

example : VKind.toTokens (.litInt ⟨true, c! "0x1", 1⟩) = [.punct '-' false, .lit (.int c! "0x1" 1)] ∧ VKind.toTokens (.litStr c! "r\"a\"" c! "a") =
    [.lit (.str c! "r\"a\"" c! "a")] := by decide

/-- **C11**, existence: it succeeds whenever the code stays valid during the replacements. -/
theorem C11_succeeds {fmt : Str → Str} (hf : FormatsAll E subs fmt) {node : Toks} (h0 : valid node = true)
    (hv : ∀ k, valid (substFirst (valueToks subs) (litWith E fmt) k node) = true) :
    substituteIdents E valid subs node = .ok (substAll (valueToks subs) (litWith E fmt) node) := by
  rw [litWith_eq hf, valueToks_eq] at *
  rcases substituteIdents_spec (E := E) (subs := subs) node h0 with ⟨-, h⟩ | ⟨k, -, -, h, -, -⟩
  · exact h
  · rw [hv k] at h; cases h

/-- **C11**: the result is a valid node. -/
theorem C11_result_valid {node out : Toks} (h : substituteIdents E valid subs node = .ok out) : valid out = true :=
  (substituteIdents_ok h).2

/-- Two aliases for the examples: `a` is the identifier `Foo`, `b` the tokens `a + b`. -/
def demoSubs : Subs :=
  [(S "a", .ident (S "Foo")), (S "b", .tokens [.ident (S "a"), .punct '+' false, .ident (S "b")])]

/-- `x { a ( b ) "% a %" }` -/
def demoNode : Toks :=
  [.ident (S "x"), .group .brace [.ident (S "a"), .group .paren [.ident (S "b")], .lit (.str (S "\"% a %\"") (S "% a %"))]]

example : substituteIdents Ext.demo (fun _ => true) demoSubs demoNode =
    .ok [.ident (S "x"), .group .brace [.ident (S "Foo"),
      .group .paren [.ident (S "a"), .punct '+' false, .ident (S "b")], .lit (.str (S "\"Foo\"") (S "Foo"))]] := by
  decide

/-- **C12** (partial: the spelling of string literals may change, see `C12_untouched_false`). Code that mentions no
alias and has no `%` in its string literals is returned unchanged up to the spelling of string literals. -/
theorem C12_untouched_partial {node out : Toks} (hm : ∀ n, (List.lookup n subs).isSome → ¬ mentions n node)
    (hs : strLits (fun _ v => '%' ∉ v) node) (h : substituteIdents E valid subs node = .ok out) :
    sameButSpelling node out := by
  rw [(substituteIdents_ok h).1]
  apply substAll_respell
  · intro n hn; exact hm n (by simpa [lookToks, get_eq_lookup] using hn)
  · refine strLits_imp (fun r v hv => ?_) node hs
    exact ⟨_, by simp only [strLit, fmtStr, formatString_plain v hv]; rfl⟩

/-- **C12** (partial: code whose string literals are spelled the plain way). Such code is returned unchanged. -/
theorem C12_untouched_plain_partial {node : Toks} (h0 : valid node = true)
    (hm : ∀ n, (List.lookup n subs).isSome → ¬ mentions n node)
    (hs : strLits (fun r v => '%' ∉ v ∧ r = E.strRepr v) node) : substituteIdents E valid subs node = .ok node := by
  have hl : ∀ n, (lookToks subs n).isSome → ¬ mentions n node := by
    intro n hn; exact hm n (by simpa [lookToks, get_eq_lookup] using hn)
  have key : substAll (lookToks subs) (strLit E subs) node = node := by
    apply substAll_same _ _ _ hl
    refine strLits_imp (fun r v hv => ?_) node hs
    simp only [strLit, fmtStr, formatString_plain v hv.1, hv.2]
  have keyk : ∀ k, substFirst (lookToks subs) (strLit E subs) k node = node := by
    intro k
    exact substFirst_same _ _ _ hl (strLits_imp (fun r v hv => by
      simp only [strLit, fmtStr, formatString_plain v hv.1, hv.2]) node hs) k
  rcases substituteIdents_spec (E := E) (valid := valid) (subs := subs) node h0 with ⟨-, h⟩ | ⟨k, -, -, h, -, -⟩
  · rw [h, key]
  · rw [keyk k, h0] at h; cases h

/-- C12 is false as stated: the raw string literal `r"x"` becomes `"x"` — whatever literal `LitStr::new` makes for a
value, code with two differently spelled literals of that value is changed. -/
theorem C12_untouched_false (E : Ext) : ∃ node : Toks, strLits (fun _ v => '%' ∉ v) node ∧
    ∀ out, substituteIdents E (fun _ => true) [] node = .ok out → out ≠ node := by
  refine ⟨[.lit (.str (S "\"x\"") (S "x")), .lit (.str (S "r\"x\"") (S "x"))], by simp [strLits, strLitsTok]; decide, ?_⟩
  intro out h e
  have h1 := (substituteIdents_ok h).1
  rw [e] at h1
  simp only [substAll, substTok, strLit, List.singleton_append, List.cons.injEq, Tok.lit.injEq, Lit.str.injEq] at h1
  have := h1.1.1.trans h1.2.1.1.symm
  revert this; decide

example : substituteIdents Ext.demo (fun _ => true) demoSubs [.ident (S "x"), .group .paren [.lit (.str (S "\"y\"") (S "y"))]] =
    .ok [.ident (S "x"), .group .paren [.lit (.str (S "\"y\"") (S "y"))]] := by decide
example : substituteIdents Ext.demo (fun _ => true) [] [.lit (.str (S "r\"x\"") (S "x"))] =
    .ok [.lit (.str (S "\"x\"") (S "x"))] := by decide

/-- **C13**: wherever an alias occurs in the code, the result has the tokens of its value at the corresponding place,
verbatim; and the rest of the result does not depend on what was inserted there: it is the substitution of the
surrounding code. -/
theorem C13_inserted_verbatim (node : Hole) (n : Str) (v : VKind) (hn : List.lookup n subs = some v) :
    ∃ node' : Hole, (∀ out, substituteIdents E valid subs (node.fill [.ident n]) = .ok out → out = node'.fill v.toTokens) ∧
      ∀ out, substituteIdents E valid subs (node.fill []) = .ok out → out = node'.fill [] := by
  refine ⟨substHole (lookToks subs) (strLit E subs) node, ?_, ?_⟩
  · intro out h
    rw [(substituteIdents_ok h).1, substAll_fill]
    simp [substAll, substTok, lookToks, get_eq_lookup, hn]
  · intro out h
    rw [(substituteIdents_ok h).1, substAll_fill]
    simp [substAll]

/-- **C13** for strings: the text of an alias put into a string is not formatted again, even if it looks like a
placeholder. -/
theorem C13_inserted_text_verbatim (n : Str) (v : VKind) (hn : List.lookup n subs = some v)
    (hname : ∀ c ∈ n, E.whitespace c = false ∧ c ≠ '%') (hne : n ≠ []) (r : Str) {out : Toks}
    (h : substituteIdents E valid subs [.lit (.str r ('%' :: n ++ ['%']))] = .ok out) :
    out = [.lit (.str (E.strRepr (stringForm E v)) (stringForm E v))] := by
  rw [stringForm_eq]
  have hf : fmtStr E subs ('%' :: n ++ ['%']) = v.format E := by
    have hfil : n.filter (fun c => !E.whitespace c) = n := by
      rw [List.filter_eq_self]; intro c hc; simp [(hname c hc).1]
    have := formatString_placeholder (C := E.toCharClass) (look := fun m => (subs.get m).map (VKind.format E)) [] n [] 0
      (by simp) (fun hm => (hname _ hm).2 rfl) hne (by simp)
    simp only [List.nil_append, List.replicate_zero, List.append_nil] at this
    unfold fmtStr
    rw [this]
    simp [expandPlaceholder, hfil, get_eq_lookup, hn, formatString_plain]
  rw [(substituteIdents_ok h).1]
  simp only [substAll, substTok, strLit, hf, List.append_nil]

/-- The text by which a value is shown in full: an identifier by its name, a string by its contents, an integer as it was written, a path
of names by the names with `::` between them, other code by itself. -/
inductive ShownAs (E : Ext) : VKind → Str → Prop
  | ident (s : Str) : ShownAs E (.ident s) s
  | str (r v : Str) : ShownAs E (.litStr r v) v
  | int (r : Str) (n : Nat) : ShownAs E (.litInt ⟨false, r, n⟩) r
  | negative (r : Str) (n : Nat) : ShownAs E (.litInt ⟨true, r, n⟩) ('-' :: r)
  | path {ts : Toks} {ss : List Str} (h : PlainPath ts ss) : ShownAs E (.path ts) ((c! "::").intercalate ss)
  | type (ts : Toks) : ShownAs E (.type ts) (E.render ts)
  | expr (ts : Toks) : ShownAs E (.expr ts) (E.render ts)
  | tokens (ts : Toks) : ShownAs E (.tokens ts) (E.render ts)
  | raw (ts : Toks) : ShownAs E (.raw ts) (E.render ts)

/-- `syn` finds the segments of plain paths. -/
def FindsSegments (E : Ext) : Prop := ∀ ts ss, PlainPath ts ss → E.pathSegs ts = ss

/-- **C69**: in a string, an alias between percents is replaced by the text which shows its value. Proved for values of every kind, but of
the paths only for those that consist of names; see `C69_paths_false`. -/
theorem C69_shown_partial (hE : FindsSegments E) (pre n post : Str) (v : VKind) (txt : Str) (hn : List.lookup n subs = some v)
    (hv : ShownAs E v txt) (hname : ∀ c ∈ n, E.whitespace c = false ∧ c ≠ '%') (hne : n ≠ []) (hpre : '%' ∉ pre) (hpost : '%' ∉ post)
    (r : Str) {out : Toks} (h : substituteIdents E valid subs [.lit (.str r (pre ++ '%' :: n ++ '%' :: post))] = .ok out) :
    out = [.lit (.str (E.strRepr (pre ++ txt ++ post)) (pre ++ txt ++ post))] := by
  have ht : stringForm E v = txt := by
    cases hv with
    | path h => rw [stringForm, hE _ _ h]
    | _ => rfl
  have hp : post.head? ≠ some '%' := by
    cases post with
    | nil => simp
    | cons c cs => intro e; simp only [List.head?_cons, Option.some.injEq] at e; simp [e] at hpost
  have hf := Formats.placeholder (C := E.toCharClass) (look := valueText E subs) pre n post post 0 hpre
    (fun hm => (hname _ hm).2 rfl) hne hp (.plain post hpost)
  have hfil : n.filter (fun c => !E.whitespace c) = n := by
    rw [List.filter_eq_self]; intro c hc; simp [(hname c hc).1]
  have e : fmtStr E subs (pre ++ '%' :: n ++ '%' :: post) = pre ++ txt ++ post := by
    have := formats_sound hf
    simp only [List.replicate_zero, List.append_nil, expandPlaceholder, hfil, valueText, hn, Option.map_some, ht] at this
    rw [← this, fmtStr, ← valueText_eq]
    simp
  rw [(substituteIdents_ok h).1]
  simp only [substAll, substTok, strLit, e, List.append_nil]

theorem demo_findsSegments : FindsSegments Ext.demo := by
  have key : ∀ ts ss, PlainPath ts ss → demoPathSegs ts = some ss := by
    intro ts ss h
    induction h with
    | one s hs => simp [demoPathSegs, hs]
    | more s _ _ ih => simp [demoPathSegs, ih]
  intro ts ss h
  simp [Ext.demo, key ts ss h]

/-- `"the %t%!"` where `t` is `std::vec`. -/
example : ∃ out, substituteIdents Ext.demo (fun _ => true)
      [(c! "t", .path [.ident c! "std", .punct ':' true, .punct ':' false, .ident c! "vec"])]
      [.lit (.str c! "\"the %t%!\"" (c! "the " ++ '%' :: c! "t" ++ '%' :: c! "!"))] = .ok out ∧
    out = [.lit (.str c! "\"the std::vec!\"" c! "the std::vec!")] :=
  ⟨_, rfl, C69_shown_partial demo_findsSegments c! "the " c! "t" c! "!" _ _ rfl
    (.path (.more c! "std" (by decide) (.one c! "vec" (by decide)))) (by decide) (by decide) (by decide) (by decide) _
    (valid := fun _ => true) rfl⟩

/-- The tokens of `Vec<a>`. -/
def vecOf (a : Str) : Toks := [.ident c! "Vec", .punct '<' false, .ident a, .punct '>' false]

/-- **C69** is false for other paths: `Vec<u8>` and `Vec<u16>` are both shown as `Vec`, since only the names of the segments are. (The
hypothesis is what `syn` does: `Vec<a>` is a path with the one segment `Vec`.) -/
theorem C69_paths_false (hE : ∀ a, E.pathSegs (vecOf a) = [c! "Vec"]) (n : Str)
    (hname : ∀ c ∈ n, E.whitespace c = false ∧ c ≠ '%') (hne : n ≠ []) :
    ∃ v w : VKind, v.toTokens = vecOf c! "u8" ∧ w.toTokens = vecOf c! "u16" ∧
      ∀ u, u = v ∨ u = w → substituteIdents E (fun _ => true) [(n, u)] [.lit (.str [] ('%' :: n ++ ['%']))] =
        .ok [.lit (.str (E.strRepr c! "Vec") c! "Vec")] := by
  refine ⟨.path (vecOf c! "u8"), .path (vecOf c! "u16"), rfl, rfl, ?_⟩
  have key : ∀ a, substituteIdents E (fun _ => true) [(n, .path (vecOf a))] [.lit (.str [] ('%' :: n ++ ['%']))] =
      .ok [.lit (.str (E.strRepr c! "Vec") c! "Vec")] := by
    intro a
    have hs := substituteIdents_spec (E := E) (valid := fun _ => true) (subs := [(n, .path (vecOf a))]) [.lit (.str [] ('%' :: n ++ ['%']))] rfl
    rcases hs with ⟨_, hs⟩ | ⟨_, _, _, h, _⟩
    · rw [hs]
      have := C13_inserted_text_verbatim (subs := [(n, .path (vecOf a))]) n (.path (vecOf a)) (by simp [List.lookup]) hname hne [] hs
      rw [this, stringForm, hE]
      simp [List.intercalate]
    · cases h
  rintro u (rfl | rfl) <;> exact key _

theorem shown_names {ss ss' : List Str} (h : ∀ s ∈ ss, ':' ∉ s) (h' : ∀ s ∈ ss', ':' ∉ s) (hne : ss ≠ []) (hne' : ss' ≠ [])
    (he : (c! "::").intercalate ss = (c! "::").intercalate ss') : ss = ss' := by
  have one : ∀ (s : Str), (c! "::").intercalate [s] = s := fun s => by simp [List.intercalate]
  have more : ∀ (s t : Str) (ss : List Str), (c! "::").intercalate (s :: t :: ss) = s ++ ':' :: ':' :: (c! "::").intercalate (t :: ss) := fun s t ss => by
    simp [List.intercalate]
  have split : ∀ (s s' : Str) (a b : Str), ':' ∉ s → ':' ∉ s' → s ++ ':' :: a = s' ++ ':' :: b → s = s' ∧ a = b := by
    intro s
    induction s with
    | nil =>
      intro s' a b _ h' e
      cases s' with
      | nil => simpa using e
      | cons c s' => simp only [List.nil_append, List.cons_append, List.cons.injEq] at e; exact (h' (by simp [← e.1])).elim
    | cons c s ih =>
      intro s' a b h h' e
      cases s' with
      | nil => simp only [List.nil_append, List.cons_append, List.cons.injEq] at e; exact (h (by simp [e.1])).elim
      | cons c' s' =>
        simp only [List.cons_append, List.cons.injEq] at e
        obtain ⟨rfl, e2⟩ := ih s' a b (fun hm => h (by simp [hm])) (fun hm => h' (by simp [hm])) e.2
        exact ⟨by rw [e.1], e2⟩
  induction ss generalizing ss' with
  | nil => exact (hne rfl).elim
  | cons s ss ih =>
    cases ss' with
    | nil => exact (hne' rfl).elim
    | cons s' ss' =>
      have hs := h s (by simp)
      have hs' := h' s' (by simp)
      cases ss with
      | nil =>
        cases ss' with
        | nil => rw [one, one] at he; rw [he]
        | cons t' ss' => rw [one, more] at he; exact (hs (by simp [he])).elim
      | cons t ss =>
        cases ss' with
        | nil => rw [one, more] at he; exact (hs' (by simp [← he])).elim
        | cons t' ss' =>
          rw [more, more] at he
          obtain ⟨rfl, e⟩ := split _ _ _ _ hs hs' he
          rw [ih (fun x hx => h x (List.mem_cons_of_mem _ hx)) (fun x hx => h' x (List.mem_cons_of_mem _ hx)) (by simp) (by simp) (by simpa using e)]

/-- **C69**, exact for paths: a path is shown by the names of its segments, so that two paths are shown in the same way if and only if their segments have
the same names, whatever generic arguments they have. -/
theorem C69_exact (pre n n' post : Str) (ts ts' : Toks) (hn : List.lookup n subs = some (.path ts)) (hn' : List.lookup n' subs = some (.path ts'))
    (hname : ∀ c ∈ n, E.whitespace c = false ∧ c ≠ '%') (hne : n ≠ []) (hname' : ∀ c ∈ n', E.whitespace c = false ∧ c ≠ '%') (hne' : n' ≠ [])
    (hpre : '%' ∉ pre) (hpost : '%' ∉ post) (r r' : Str) {s s' : Str} {q q' : Str}
    (hc : ∀ x ∈ E.pathSegs ts, ':' ∉ x) (hc' : ∀ x ∈ E.pathSegs ts', ':' ∉ x) (hs : E.pathSegs ts ≠ []) (hs' : E.pathSegs ts' ≠ [])
    (h : substituteIdents E valid subs [.lit (.str r (pre ++ '%' :: n ++ '%' :: post))] = .ok [.lit (.str q s)])
    (h' : substituteIdents E valid subs [.lit (.str r' (pre ++ '%' :: n' ++ '%' :: post))] = .ok [.lit (.str q' s')]) :
    s = s' ↔ E.pathSegs ts = E.pathSegs ts' := by
  have key : ∀ (n : Str) (ts : Toks) (r q s : Str), List.lookup n subs = some (.path ts) → (∀ c ∈ n, E.whitespace c = false ∧ c ≠ '%') → n ≠ [] →
      substituteIdents E valid subs [.lit (.str r (pre ++ '%' :: n ++ '%' :: post))] = .ok [.lit (.str q s)] →
      s = pre ++ (c! "::").intercalate (E.pathSegs ts) ++ post := by
    intro n ts r q s hn hname hne h
    have hp : post.head? ≠ some '%' := by
      cases post with
      | nil => simp
      | cons c cs => intro e; simp only [List.head?_cons, Option.some.injEq] at e; simp [e] at hpost
    have hf := Formats.placeholder (C := E.toCharClass) (look := valueText E subs) pre n post post 0 hpre
      (fun hm => (hname _ hm).2 rfl) hne hp (.plain post hpost)
    have hfil : n.filter (fun c => !E.whitespace c) = n := by
      rw [List.filter_eq_self]; intro c hc; simp [(hname c hc).1]
    have e : fmtStr E subs (pre ++ '%' :: n ++ '%' :: post) = pre ++ (c! "::").intercalate (E.pathSegs ts) ++ post := by
      have := formats_sound hf
      simp only [List.replicate_zero, List.append_nil, expandPlaceholder, hfil, valueText, hn, Option.map_some, stringForm] at this
      rw [← this, fmtStr, ← valueText_eq]
      simp
    have := (substituteIdents_ok h).1
    simp only [substAll, substTok, strLit, e, List.append_nil] at this
    simp only [List.cons.injEq, Tok.lit.injEq, Lit.str.injEq] at this
    exact this.1.2
  rw [key n ts r q s hn hname hne h, key n' ts' r' q' s' hn' hname' hne' h']
  constructor
  · intro e
    have e := List.append_cancel_left (List.append_cancel_right e)
    exact shown_names hc hc' hs hs' e
  · intro e; rw [e]

/-- `"%t%"` and `"%u%"` where `t` is `std::vec` and `u` is `std`. -/
example : ∃ q s q' s', substituteIdents Ext.demo (fun _ => true)
      [(c! "t", .path [.ident c! "std", .punct ':' true, .punct ':' false, .ident c! "vec"]), (c! "u", .path [.ident c! "std"])]
      [.lit (.str [] ([] ++ '%' :: c! "t" ++ '%' :: []))] = .ok [.lit (.str q s)] ∧
    substituteIdents Ext.demo (fun _ => true)
      [(c! "t", .path [.ident c! "std", .punct ':' true, .punct ':' false, .ident c! "vec"]), (c! "u", .path [.ident c! "std"])]
      [.lit (.str [] ([] ++ '%' :: c! "u" ++ '%' :: []))] = .ok [.lit (.str q' s')] ∧ s ≠ s' :=
  ⟨_, c! "std::vec", _, c! "std", rfl, rfl, by decide⟩

/-- An instance whose segments are the names outside angle brackets. -/
example : ∃ E : Ext, ∀ a, E.pathSegs (vecOf a) = [c! "Vec"] :=
  ⟨{ Ext.demo with pathSegs := fun ts => (ts.takeWhile (· ≠ .punct '<' false)).filterMap (fun t => match t with | .ident s => some s | _ => none) },
    fun _ => rfl⟩

/-- The value of `b` mentions `a` and `b`. -/
example : substituteIdents Ext.demo (fun _ => true) demoSubs [.ident (S "b")] =
    .ok [.ident (S "a"), .punct '+' false, .ident (S "b")] := by decide
example : substituteIdents Ext.demo (fun _ => true) [(S "s", .litStr (S "\"%s%\"") (S "%s%"))]
    [.lit (.str (S "\"%s%\"") (S "%s%"))] = .ok [.lit (.str (S "\"%s%\"") (S "%s%"))] := by decide

/-- **C14**: every group of the code corresponds to one group of the result with the same delimiter at the
corresponding place. -/
theorem C14_groups_preserved {node out : Toks} (h : substituteIdents E valid subs node = .ok out) : SameGroups node out := by
  rw [(substituteIdents_ok h).1]
  exact substAll_sameGroups _ _ _

/-- `SameGroups` is not trivial: delimiters cannot change, groups cannot vanish. -/
example : ¬ SameGroups [.group .paren []] [.group .brace []] := by
  intro h
  generalize hx : ([.group .brace []] : Toks) = x at h
  cases h with
  | leaf _ _ _ _ hl => exact hl _ _ rfl
  | group => cases hx
example : ¬ SameGroups [.group .paren []] [] := by
  intro h
  generalize hx : ([] : Toks) = x at h
  cases h with
  | leaf _ _ _ _ hl => exact hl _ _ rfl
  | group => cases hx

/-- **C15**: for every visitor that does not rewrite groups on entry, the loop ends after at most `2 * tokens + 1`
iterations; if the visitor's own hooks do not panic, neither does the walk. -/
theorem C15_walk_terminates {σ : Type} (v : Visitor σ) (hv : ∀ s c ts s' new, v.enterGroup s c ts ≠ .ok (s', .replace new))
    (s : σ) (ts : Toks) : ∃ r, (∀ n, 2 * count ts + 1 ≤ n → walkN v n s [⟨0, ts⟩] = some r) ∧ walk v s ts = r ∧
      (HooksDontPanic v → r ≠ .panic) := by
  obtain ⟨r, h1, h2⟩ := walkN_total v hv (Tok.weightL ts + 1) s [⟨0, ts⟩] trivial (by simp [ctxW, parentsW])
  refine ⟨r, ?_, ?_, h2⟩
  · intro n hn
    have := weightL_le_count ts
    exact walkN_mono v h1 (by omega)
  · simp [walk, h1]

/-- **C15** for the substitution visitor: it meets the condition, so substitution always terminates. -/
theorem C15_substitution_terminates (s : SubstState) (ts : Toks) :
    ∃ r, ∀ n, 2 * count ts + 1 ≤ n → walkN (substVisitor E valid subs) n s [⟨0, ts⟩] = some r := by
  obtain ⟨r, h, -⟩ := C15_walk_terminates (substVisitor E valid subs) (by intro s c ts s' new h; cases h) s ts
  exact ⟨r, h⟩

/-- The condition is needed: a visitor that puts a group in every group it enters is followed forever. -/
theorem C15_entry_rewriting_diverges : ∃ (v : Visitor Unit) (ts : Toks), ∀ n, walkN v n () [⟨0, ts⟩] = none := by
  let v : Visitor Unit := { Visitor.default Unit with
    enterGroup := fun s _ _ => .ok (s, .replace [.group .paren []]) }
  refine ⟨v, [.group .paren []], ?_⟩
  suffices h : ∀ n st, walkN v n () (⟨0, [.group .paren []]⟩ :: st) = none from fun n => h n []
  intro n
  induction n with
  | zero => intro st; rfl
  | succ n ih => intro st; exact ih _

/-- The hypotheses hold for the default visitor, and for one that replaces identifiers. -/
example : HooksDontPanic (Visitor.default Unit) := by
  constructor <;> intros <;> simp [Visitor.default]
example : walk (Visitor.default Unit) () demoNode = .ok demoNode := by decide

/-- **C16**: substitution in a valid node succeeds exactly if the code stays valid after each single replacement, made
from left to right. -/
theorem C16_success_iff {fmt : Str → Str} (hf : FormatsAll E subs fmt) {node : Toks} (h0 : valid node = true) :
    (∃ out, substituteIdents E valid subs node = .ok out) ↔
      ∀ k, k ≤ (occAll (valueToks subs) node).length → valid (substFirst (valueToks subs) (litWith E fmt) k node) = true := by
  rw [litWith_eq hf, valueToks_eq]
  rcases substituteIdents_spec (E := E) (valid := valid) (subs := subs) node h0 with ⟨h1, h⟩ | ⟨k, hk1, hk2, h3, -, h⟩
  · refine ⟨fun _ k hk => ?_, fun _ => ⟨_, h⟩⟩
    by_cases h' : k = 0
    · subst h'; rw [substFirst_zero]; exact h0
    · exact h1 k (by omega) hk
  · constructor
    · rintro ⟨out, ho⟩
      rw [h] at ho
      cases hl : lastAlias (lookToks subs) node k <;> simp [hl, blame] at ho
    · intro h4; rw [h4 k hk2] at h3; cases h3

/-- **C16**: if replacement number `k` is the first to break the code, the error names the last alias replaced so far
and its replacement text. If only string literals have been replaced so far, there is a panic instead. -/
theorem C16_error_names_last_alias {fmt : Str → Str} (hf : FormatsAll E subs fmt) {node : Toks} (h0 : valid node = true)
    (k : Nat) (hk : k ≤ (occAll (valueToks subs) node).length)
    (hbad : valid (substFirst (valueToks subs) (litWith E fmt) k node) = false)
    (hgood : ∀ j, j < k → valid (substFirst (valueToks subs) (litWith E fmt) j node) = true) :
    match lastAlias (valueToks subs) node k with
    | some n => ∃ v, List.lookup n subs = some v ∧
        substituteIdents E valid subs node = .err (.substitution n (E.render v.toTokens))
    | none => substituteIdents E valid subs node = .panic := by
  rw [litWith_eq hf, valueToks_eq] at *
  rcases substituteIdents_spec (E := E) (valid := valid) (subs := subs) node h0 with ⟨h1, -⟩ | ⟨k', hk1, hk2, h3, h4, h⟩
  · exfalso
    by_cases h' : k = 0
    · subst h'; rw [substFirst_zero, h0] at hbad; cases hbad
    · rw [h1 k (by omega) hk] at hbad; cases hbad
  · have hkk : k' = k := by
      by_cases hlt : k' < k
      · rw [hgood k' hlt] at h3; cases h3
      · by_cases hgt : k < k'
        · by_cases h' : k = 0
          · subst h'; rw [substFirst_zero, h0] at hbad; cases hbad
          · rw [h4 k (by omega) hgt] at hbad; cases hbad
        · omega
    subst hkk
    cases hl : lastAlias (lookToks subs) node k' with
    | none => simpa [hl, blame] using h
    | some n =>
      simp only [hl, blame] at h
      have hsome : (lookToks subs n).isSome := by
        have hmem := List.mem_of_getLast? hl
        obtain ⟨t, ht, hal⟩ := List.mem_filterMap.1 hmem
        refine occAll_alias _ _ t (List.mem_of_mem_take ht) n ?_
        cases t <;> simp [aliasOf] at hal
        rw [hal]
      simp only [lookToks, get_eq_lookup, Option.isSome_map] at hsome
      obtain ⟨v, hv⟩ := Option.isSome_iff_exists.1 hsome
      exact ⟨v, hv, by simpa [lookToks, get_eq_lookup, hv] using h⟩

/-- **C16**: when the replacement that breaks the code is that of an alias, this alias is the one named. -/
theorem C16_error_names_breaking_alias {fmt : Str → Str} (hf : FormatsAll E subs fmt) {node : Toks} (h0 : valid node = true)
    (k : Nat) (n : Str) (hk : (occAll (valueToks subs) node)[k]? = some (.ident n))
    (hbad : valid (substFirst (valueToks subs) (litWith E fmt) (k + 1) node) = false)
    (hgood : ∀ j, j ≤ k → valid (substFirst (valueToks subs) (litWith E fmt) j node) = true) :
    ∃ v, List.lookup n subs = some v ∧
      substituteIdents E valid subs node = .err (.substitution n (E.render v.toTokens)) := by
  obtain ⟨hlt, hkk⟩ := List.getElem?_eq_some_iff.1 hk
  have := C16_error_names_last_alias hf h0 (k + 1) hlt hbad (fun j hj => hgood j (by omega))
  have hl : lastAlias (valueToks subs) node (k + 1) = some n := by
    unfold lastAlias
    rw [List.take_add_one, hk]
    simp [aliasOf]
  rw [hl] at this
  exact this

/-- `a`, `b` and a string; the code stops being valid when the second occurrence of `a` is replaced. -/
example : substituteIdents Ext.demo (fun ts => ts.head? ≠ some (.ident (S "Foo")) || ts.length ≤ 4) demoSubs
    [.ident (S "a"), .lit (.str (S "\"%\"") (S "%")), .ident (S "b"), .ident (S "a")] =
    .err (.substitution (S "b") (S "a + b")) := by decide
/-- Only a string literal has been replaced: panic. -/
example : substituteIdents Ext.demo (fun ts => ts ≠ [.lit (.str (S "\"Foo\"") (S "Foo"))]) demoSubs
    [.lit (.str (S "\"%a%\"") (S "%a%"))] = .panic := by decide

end Verif.Props
