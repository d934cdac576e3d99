import Verif.Model.Error
import Verif.Props.Failures
/-!
# What error messages say

C67: messages of different kinds of errors begin differently; the names and types an error is about can be read off its message; a call
that fits no overload is reported with the signatures of all overloads of the function, in order, and these are different.

C68: does the message quote the call as it was written? Only for calls with one argument.
-/

namespace Verif.Props
open Verif Spec

/-- The word in front of the colon. -/
def kindWord : ErrorType → Str
  | .type => c! "TypeError"
  | .eval => c! "EvalError"
  | .redefinedName => c! "RedefinedNameError"
  | .signature => c! "SignatureError"
  | .undefinedFunction => c! "UndefinedFunctionError"
  | .substitution => c! "SubstitutionError"
  | .internal => c! "InternalError"
  | .parse => []

theorem append_split {c : Char} : ∀ {a b x y : Str}, c ∉ a → c ∉ b → a ++ c :: x = b ++ c :: y → a = b ∧ x = y
  | [], [], x, y, _, _, h => ⟨rfl, by simpa using h⟩
  | [], d :: b, x, y, _, hb, h => by
    simp only [List.nil_append, List.cons_append, List.cons.injEq] at h
    exact (hb (by simp [h.1])).elim
  | d :: a, [], x, y, ha, _, h => by
    simp only [List.nil_append, List.cons_append, List.cons.injEq] at h
    exact (ha (by simp [h.1])).elim
  | d :: a, e :: b, x, y, ha, hb, h => by
    simp only [List.cons_append, List.cons.injEq] at h
    obtain ⟨h1, h2⟩ := append_split (fun hm => ha (by simp [hm])) (fun hm => hb (by simp [hm])) h.2
    exact ⟨by rw [h.1, h1], h2⟩

/-- **C67**: a message is headed by the kind of the error. -/
theorem C67_kind (E : Ext) (syn : Str) (x : Err) (hx : x ≠ .parse) : ∃ rest, x.message E syn = kindWord (errorType x) ++ c! ": " ++ rest := by
  cases x with
  | parse => exact (hx rfl).elim
  | typeError m => exact ⟨_, rfl⟩
  | evalError vs => exact ⟨_, rfl⟩
  | redefined n => exact ⟨c! "name " ++ n ++ c! " has already been defined", by simp [Err.message, kindWord, errorType]⟩
  | signature sig call =>
    exact ⟨c! "function " ++ sig ++ c! " has been called with incompatible arguments: " ++ Text.print E call,
      by simp [Err.message, kindWord, errorType]⟩
  | undefinedFunction n => exact ⟨c! "function \"" ++ n ++ c! "(...)\" is undefined", by simp [Err.message, kindWord, errorType]⟩
  | substitution o r =>
    exact ⟨c! "failed to substitute:\n\n  " ++ o ++ c! "\n\nwith:\n\n  " ++ r ++ c! "\n\nEncountered an error:\n\n  " ++ syn,
      by simp [Err.message, kindWord, errorType]⟩
  | internal => exact ⟨[], rfl⟩

/-- **C67**: errors with the same message are of the same kind. -/
theorem C67_kind_told {E E' : Ext} {syn syn' : Str} {x y : Err} (hx : x ≠ .parse) (hy : y ≠ .parse) (h : x.message E syn = y.message E' syn') :
    errorType x = errorType y := by
  obtain ⟨r, h1⟩ := C67_kind E syn x hx
  obtain ⟨r', h2⟩ := C67_kind E' syn' y hy
  rw [h1, h2, List.append_assoc, List.append_assoc] at h
  have hc : ∀ t, ':' ∉ kindWord t := by intro t; cases t <;> decide
  have h3 := (append_split (hc _) (hc _) h).1
  have inj : ∀ s t : ErrorType, kindWord s = kindWord t → s = t := by intro s t; cases s <;> cases t <;> decide
  exact inj _ _ h3

/-- **C67**: the name that is already defined, the function that is not defined, and the alias that cannot be replaced can be read off. -/
theorem C67_names {E E' : Ext} {syn syn' : Str} {x y : Err} (h : x.message E syn = y.message E' syn') :
    (∀ n m, x = .redefined n → y = .redefined m → n = m) ∧
    (∀ n m, x = .undefinedFunction n → y = .undefinedFunction m → n = m) ∧
    (∀ n m r s, x = .substitution n r → y = .substitution m s → '\n' ∉ n → '\n' ∉ m → n = m) := by
  refine ⟨?_, ?_, ?_⟩
  · rintro n m rfl rfl
    simpa [Err.message] using h
  · rintro n m rfl rfl
    simpa [Err.message] using h
  · rintro n m r s rfl rfl hn hm
    simp only [Err.message, List.append_assoc, List.append_cancel_left_eq] at h
    exact (append_split hn hm h).1

/-- The name of a type in messages about casts. -/
def variantName : Ty → Str
  | .ident => c! "Ident"
  | .path => c! "Path"
  | .type => c! "Type"
  | .expr => c! "Expr"
  | .litStr => c! "LitStr"
  | .litInt => c! "LitInt"
  | .tokens => c! "Tokens"
  | .raw => c! "Raw"
  | .variadic t => c! "Variadic(" ++ variantName t ++ c! ")"

theorem debug_eq (t : Ty) : t.debug = variantName t := by
  induction t with
  | variadic t ih => simp only [Ty.debug, variantName, ih]
  | _ => rfl

/-- A text with places `{0}`, `{1}`, … for arguments, filled in. -/
def fillIn (args : List Str) : Str → Str
  | '{' :: d :: '}' :: cs => (args[d.toNat - '0'.toNat]?).getD [] ++ fillIn args cs
  | c :: cs => c :: fillIn args cs
  | [] => []

/-- What a type error is about. -/
def mismatchWording (syn : Str) : Mismatch → Str
  | .coercion f t => fillIn [typeName f, typeName t] c! "impossible to coerce from {0} to {1}"
  | .cast f (.variadic t) => fillIn [variantName f, variantName t] c! "Unable to cast {0} to Variadic({1}): impossible cast"
  | .cast f t => fillIn [variantName f, variantName t, syn] c! "Unable to cast {0} to {1}: {2}"
  | .tupleSize => c! "Mismatched number of elements in the tuple"
  | .tupleShape => c! "Shape of the value tuple doesn't match the shape of the alias tuple"
  | .loopKind => c! "Mismatched alias and value types"

/-- The wording of the messages. `syn` is the message of the parser. -/
def wording (E : Ext) (syn : Str) : Err → Str
  | .typeError m => fillIn [mismatchWording syn m] c! "TypeError: {0}"
  | .evalError args => fillIn [(c! ", ").intercalate (args.map E.render)]
      c! "EvalError: Failed to produce a valid identifier from concatenated arguments: {0}"
  | .redefined n => fillIn [n] c! "RedefinedNameError: name {0} has already been defined"
  | .signature sig call => fillIn [sig, Text.print E call] c! "SignatureError: function {0} has been called with incompatible arguments: {1}"
  | .undefinedFunction n => fillIn [n] c! "UndefinedFunctionError: function \"{0}(...)\" is undefined"
  | .substitution o r => fillIn [o, r, syn] c! "SubstitutionError: failed to substitute:\n\n  {0}\n\nwith:\n\n  {1}\n\nEncountered an error:\n\n  {2}"
  | .internal => c! "InternalError: "
  | .parse => syn

theorem joinWith_eq_intercalate (sep : Str) : ∀ l : List Str, VKind.joinWith sep l = sep.intercalate l
  | [] => rfl
  | [a] => by simp [VKind.joinWith, List.intercalate]
  | a :: b :: l => by
    have := joinWith_eq_intercalate sep (b :: l)
    rw [VKind.joinWith, this]
    · simp [List.intercalate]
    · simp

/-- **C67**: messages are worded like this, to the letter. -/
theorem C67_wording (E : Ext) (syn : Str) (x : Err) : x.message E syn = wording E syn x := by
  cases x with
  | typeError m =>
    cases m with
    | coercion f t => simp [Err.message, wording, mismatchWording, Mismatch.text, fillIn, show_eq_typeName]
    | cast f t =>
      cases t <;> simp [Err.message, wording, mismatchWording, Mismatch.text, fillIn, debug_eq, variantName, Ty.isVariadic]
    | tupleSize => simp [Err.message, wording, mismatchWording, Mismatch.text, fillIn]
    | tupleShape => simp [Err.message, wording, mismatchWording, Mismatch.text, fillIn]
    | loopKind => simp [Err.message, wording, mismatchWording, Mismatch.text, fillIn]
  | _ => simp [Err.message, wording, fillIn, joinWith_eq_intercalate]

example : wording Ext.demo [] (.typeError (.coercion .litStr .ident)) = S "TypeError: impossible to coerce from str to ident" := by decide

theorem typeName_ne_nil (t : Ty) : typeName t ≠ [] := by
  cases t <;> simp [typeName]

theorem typeName_chars {c : Char} (hc : c ∈ c! " (),|>") (t : Ty) : c ∉ typeName t := by
  induction t with
  | variadic t ih =>
    have : ∀ c ∈ c! " (),|>", c ∉ c! "..." := by decide
    simp only [typeName, List.mem_append, not_or]
    exact ⟨ih, this c hc⟩
  | ident => revert c; decide
  | path => revert c; decide
  | type => revert c; decide
  | expr => revert c; decide
  | litStr => revert c; decide
  | litInt => revert c; decide
  | tokens => revert c; decide
  | raw => revert c; decide

/-- **C67**: types have different names. -/
theorem C67_types_differ {s t : Ty} (h : typeName s = typeName t) : s = t := by
  have base : ∀ {s t : Ty}, typeName s = typeName t ++ c! "..." → s.isVariadic = true := by
    intro s t h
    have : (typeName s).getLast? = some '.' := by rw [h]; simp
    cases s <;> first | rfl | exact absurd this (by decide)
  induction s generalizing t with
  | variadic s ih =>
    cases t with
    | variadic t => rw [ih (List.append_cancel_right h)]
    | _ => cases base h.symm
  | _ =>
    cases t with
    | variadic t => cases base h
    | _ => first | rfl | exact absurd h (by decide)

theorem variantName_inj {s t : Ty} (h : variantName s = variantName t) : s = t := by
  induction s generalizing t with
  | variadic s ih =>
    cases t with
    | variadic t =>
      have : variantName s = variantName t := by simpa [variantName] using h
      rw [ih this]
    | _ => exact absurd (congrArg List.length h) (by simp [variantName])
  | _ =>
    cases t with
    | variadic t => exact absurd (congrArg List.length h) (by simp [variantName])
    | _ => first | rfl | exact absurd h (by decide)

theorem variantName_chars (t : Ty) : ' ' ∉ variantName t ∧ ':' ∉ variantName t := by
  induction t with
  | variadic t ih => simp [variantName, ih.1, ih.2]
  | _ => decide

/-- **C67**: from which type to which type a cast failed, or a value cannot be coerced, can be read off. -/
theorem C67_types_told {E E' : Ext} {syn syn' : Str} {v w : Mismatch} (h : (Err.typeError v).message E syn = (Err.typeError w).message E' syn') :
    (∀ f t f' t', v = .cast f t → w = .cast f' t' → f = f' ∧ t = t') ∧
    (∀ f t f' t', v = .coercion f t → w = .coercion f' t' → f = f' ∧ t = t') := by
  simp only [Err.message, List.append_cancel_left_eq] at h
  refine ⟨?_, ?_⟩
  · rintro f t f' t' rfl rfl
    simp only [Mismatch.text, debug_eq, List.append_assoc, List.append_cancel_left_eq] at h
    obtain ⟨h1, h2⟩ := append_split (variantName_chars f).1 (variantName_chars f').1 h
    have h3 := List.append_cancel_left (as := c! "to ") h2
    exact ⟨variantName_inj h1, variantName_inj (append_split (variantName_chars t).2 (variantName_chars t').2 h3).1⟩
  · rintro f t f' t' rfl rfl
    simp only [Mismatch.text, show_eq_typeName, List.append_assoc, List.append_cancel_left_eq] at h
    obtain ⟨h1, h2⟩ := append_split (typeName_chars (by decide) f) (typeName_chars (by decide) f') h
    exact ⟨C67_types_differ h1, C67_types_differ (by simpa using h2)⟩

/-! ## Signatures -/

theorem intercalate_inj {p r : Str} {c : Char} : ∀ {as bs : List Str}, (∀ a ∈ as, a ≠ [] ∧ c ∉ a ++ p) → (∀ b ∈ bs, b ≠ [] ∧ c ∉ b ++ p) →
    (p ++ c :: r).intercalate as = (p ++ c :: r).intercalate bs → as = bs
  | [], [], _, _, _ => rfl
  | [], [b], _, hb, h => ((hb b (by simp)).1 (by simpa using h.symm)).elim
  | [], b :: b' :: bs, _, hb, h => by
    rw [List.intercalate_cons_cons] at h
    exact absurd (congrArg List.length h) (by simp)
  | [a], [], ha, _, h => ((ha a (by simp)).1 (by simpa using h)).elim
  | a :: a' :: as, [], ha, _, h => by
    rw [List.intercalate_cons_cons] at h
    exact absurd (congrArg List.length h) (by simp)
  | [a], [b], _, _, h => by simpa using h
  | [a], b :: b' :: bs, ha, _, h => by
    rw [List.intercalate_cons_cons, List.intercalate_singleton] at h
    exact ((ha a (by simp)).2 (by rw [h]; simp)).elim
  | a :: a' :: as, [b], _, hb, h => by
    rw [List.intercalate_cons_cons, List.intercalate_singleton] at h
    exact ((hb b (by simp)).2 (by rw [← h]; simp)).elim
  | a :: a' :: as, b :: b' :: bs, ha, hb, h => by
    rw [List.intercalate_cons_cons, List.intercalate_cons_cons] at h
    have h' : (a ++ p) ++ c :: (r ++ (p ++ c :: r).intercalate (a' :: as)) = (b ++ p) ++ c :: (r ++ (p ++ c :: r).intercalate (b' :: bs)) := by
      simpa using h
    obtain ⟨h1, h2⟩ := append_split (ha a (by simp)).2 (hb b (by simp)).2 h'
    rw [List.append_cancel_right h1, intercalate_inj (fun x hx => ha x (by simp [hx])) (fun x hx => hb x (by simp [hx]))
      (List.append_cancel_left h2)]

theorem intercalate_chars {c : Char} {sep : Str} (hs : c ∉ sep) : ∀ {as : List Str}, (∀ a ∈ as, c ∉ a) → c ∉ sep.intercalate as
  | [], _ => by simp
  | [a], h => by simpa using h a
  | a :: b :: as, h => by
    rw [List.intercalate_cons_cons]
    simp only [List.mem_append, not_or]
    exact ⟨⟨h a (by simp), hs⟩, intercalate_chars hs fun x hx => h x (by simp [hx])⟩

/-- **C67**: the name and the types of a function can be read off its signature. -/
theorem C67_signature_told {f g : Func} (hf : '(' ∉ f.name) (hg : '(' ∉ g.name) (h : sigText f = sigText g) :
    f.name = g.name ∧ f.args = g.args ∧ f.out = g.out := by
  have args_chars : ∀ f : Func, ')' ∉ (c! ", ").intercalate (f.args.map typeName) := fun f =>
    intercalate_chars (by decide) fun a ha => by
      obtain ⟨t, -, rfl⟩ := List.mem_map.1 ha
      exact typeName_chars (by decide) t
  have args_ok : ∀ f : Func, ∀ a ∈ f.args.map typeName, a ≠ [] ∧ ',' ∉ a ++ [] := by
    intro f a ha
    obtain ⟨t, -, rfl⟩ := List.mem_map.1 ha
    exact ⟨typeName_ne_nil t, by simpa using typeName_chars (by decide) t⟩
  simp only [sigText, List.append_assoc] at h
  obtain ⟨h1, h2⟩ := append_split hf hg h
  obtain ⟨h3, h4⟩ := append_split (args_chars f) (args_chars g) h2
  have h5 := intercalate_inj (p := []) (r := c! " ") (c := ',') (args_ok f) (args_ok g) h3
  refine ⟨h1, ?_, C67_types_differ (by simpa using h4)⟩
  exact List.map_inj_right (fun _ _ => C67_types_differ) |>.1 h5

/-- **C67**: the overloads of the built-in functions have different signatures. -/
theorem C67_builtins_differ : (builtins.map sigText).Nodup := by decide +kernel

/-- **C67**: a call that fits no overload is reported with the signatures of all built-in functions of this name, in the order of their
declaration, and with the call. -/
theorem C67_overloads_listed {W : World} {hist : List (Invocation × Luck)} {inv : Invocation} {l : Luck} (hs : Scheduled W hist inv l)
    {x : Err} (h : output W hist inv l = .compileError x) (hx : errorType x = .signature) (syn : Str) :
    ∃ a its defs m id n args raw, Reads W inv a ∧ InForce a its ∧ defs ∈ its ∧ (m, .call id n args raw) ∈ defs ∧
      builtins.filter (fun f => f.name == n) ≠ [] ∧
      x.message W.E syn = c! "SignatureError: function " ++ (c! " | ").intercalate ((builtins.filter fun f => f.name == n).map sigText) ++
        c! " has been called with incompatible arguments: " ++ Text.print W.E (exprText (.call id n args raw)) := by
  rcases C65_says_what_is_wrong hs h with ⟨rfl, -⟩ | ⟨a, ha, ⟨_, _, _, _, _, _, -, -, -, -, -, rfl⟩ | ⟨pre, defs, post, hi, -, hf⟩⟩
  · cases hx
  · cases hx
  · cases hf with
    | signature p m id n args raw q hd tes hp fs hfs hu =>
      have hf : builtins.filter (fun f => f.name == n) = fs ∧ fs ≠ [] := by
        unfold builtinFuncs at hfs
        split at hfs
        · cases hfs
        · rename_i hne; cases hfs; exact ⟨rfl, hne⟩
      refine ⟨a, _, defs, m, id, n, args, raw, ha, hi, by simp, by simp [hd], by rw [hf.1]; exact hf.2, ?_⟩
      rw [hf.1]
      rfl
    | _ => cases hx

/-- **C67**: `concat` which makes no identifier is reported with the texts of all its arguments, in order. -/
theorem C67_arguments_listed {W : World} {hist : List (Invocation × Luck)} {inv : Invocation} {l : Luck} (hs : Scheduled W hist inv l)
    {x : Err} (h : output W hist inv l = .compileError x) (hx : errorType x = .eval) (syn : Str) :
    ∃ (a : PAst) (its : List (List (Str × Expr))) (defs : List (Str × Expr)) (tes : List (Str × TExpr)) (f : Func) (s : Str) (rest : List Toks),
      Reads W inv a ∧ InForce a its ∧ defs ∈ its ∧ checkSpec builtinFuncs defs (fun _ => none) = .ok tes ∧
      f.name = c! "concat" ∧ AppliedSpec W.E (l.ids 0) tes (fun _ => none) f (.ident s :: rest.map .tokens) ∧
      x.message W.E syn = c! "EvalError: Failed to produce a valid identifier from concatenated arguments: " ++
        (c! ", ").intercalate (W.E.render [.ident s] :: rest.map W.E.render) := by
  rcases C65_says_what_is_wrong hs h with ⟨rfl, -⟩ | ⟨a, ha, ⟨_, _, _, _, _, _, -, -, -, -, -, rfl⟩ | ⟨pre, defs, post, hi, -, hf⟩⟩
  · cases hx
  · cases hx
  · cases hf with
    | concat tes hc f hf hn s rest hap he =>
      refine ⟨a, _, defs, tes, f, s, rest, ha, hi, by simp, hc, hn, hap, ?_⟩
      simp only [Err.message, joinWith_eq]
      rfl
    | _ => cases hx

/-- **C67**: an alias that cannot be replaced is reported with its name and the text of its value. -/
theorem C67_substitution_told {W : World} {hist : List (Invocation × Luck)} {inv : Invocation} {l : Luck} (hs : Scheduled W hist inv l)
    {x : Err} (h : output W hist inv l = .compileError x) (hx : errorType x = .substitution) (syn : Str) :
    ∃ a its defs vs n v, Reads W inv a ∧ InForce a its ∧ defs ∈ its ∧ outcome W.E (Env.builtin (l.ids 0)) defs = .ok vs ∧ (n, v) ∈ vs ∧
      x.message W.E syn = c! "SubstitutionError: failed to substitute:\n\n  " ++ n ++ c! "\n\nwith:\n\n  " ++ W.E.render v.toTokens ++
        c! "\n\nEncountered an error:\n\n  " ++ syn := by
  rcases C65_says_what_is_wrong hs h with ⟨rfl, -⟩ | ⟨a, ha, ⟨_, _, _, _, _, _, -, -, -, -, -, rfl⟩ | ⟨pre, defs, post, hi, -, hf⟩⟩
  · cases hx
  · cases hx
  · cases hf with
    | substitution vs ho n v hv hb => exact ⟨a, _, defs, vs, n, v, ha, hi, by simp, ho, hv, rfl⟩
    | _ => cases hx

/-! ## Quoting the call -/

/-- Literals which are shown as they are written: strings without escapes, and non-negative integers in base ten without a suffix. -/
def PlainLit : VKind → Prop
  | .litStr r v => r = '"' :: v ++ ['"']
  | .litInt i => i.neg = false ∧ i.repr = Nat.toDigits 10 i.val
  | _ => True

/-- Arguments which are shown as they are written. -/
inductive PlainArg : Expr → Prop
  | value (id : Nat) (k : VKind) (h : PlainLit k) : PlainArg (.value id k)
  | call (id : Nat) (n : Str) (e : Expr) (r : Nat × Toks) : PlainArg (.call id n [e] (some r))

/-- `Quoted E p t`: `t` is the text of `p`. -/
inductive Quoted (E : Ext) : Toks → Str → Prop
  | tokens (p : Toks) : Quoted E p (E.render p)
  | leaf {p : Toks} {t : Tok} (h : First p t []) : Quoted E p (E.render [t])
  | call {p p' : Toks} (n : Str) (raw : Toks) (h : First p (.ident n) p') (h' : First p' (.group .paren raw) []) : Quoted E p (n ++ c! "(" ++ E.render raw ++ c! ")")

/-- Piece by piece. -/
inductive QuotedAll (E : Ext) : List Toks → List Str → Prop
  | nil : QuotedAll E [] []
  | cons {p t ps ts} (h : Quoted E p t) (hs : QuotedAll E ps ts) : QuotedAll E (p :: ps) (t :: ts)

/-- Single identifiers and literals are printed as they are. -/
structure PrintsLeaves (E : Ext) : Prop where
  ident (s : Str) : E.render [.ident s] = s
  str (r v : Str) : E.render [.lit (.str r v)] = r
  int (r : Str) (n : Nat) : E.render [.lit (.int r n)] = r

theorem print_append (E : Ext) (a b : Text) : Text.print E (a ++ b) = Text.print E a ++ Text.print E b := by
  induction a with
  | nil => rfl
  | cons p a ih => cases p <;> simp [Text.print, ih]

theorem print_intercalate (E : Ext) (s : Str) : ∀ ts : List Text,
    Text.print E ([Piece.str s].intercalate ts) = s.intercalate (ts.map (Text.print E))
  | [] => by simp [Text.print]
  | [t] => by simp
  | t :: t' :: ts => by
    rw [List.intercalate_cons_cons, List.map_cons, List.map_cons, List.intercalate_cons_cons, print_append, print_append,
      print_intercalate E s (t' :: ts)]
    simp [Text.print]

theorem readsAs_quoted {E : Ext} (hE : PrintsLeaves E) {Y : Syn} {i : Nat} {p used rest : Toks} {v : VKind} (h : ReadsAs Y i p v used rest)
    (hv : PlainLit v) : Text.print E (shownValue v) = E.render used := by
  cases h with
  | int => rw [hE.int]; simpa [shownValue, Text.print, IntLit.digits, decimal] using hv.2.symm
  | negInt => cases hv.1
  | str => rw [hE.str]; simp only [PlainLit] at hv; simp [shownValue, Text.print, hv]
  | underscore => rw [hE.ident]; simp [shownValue, Text.print]
  | ident => rw [hE.ident]; simp [shownValue, Text.print]
  | path => simp [shownValue, Text.print, VKind.toTokens]
  | type => simp [shownValue, Text.print, VKind.toTokens]
  | expr => simp [shownValue, Text.print, VKind.toTokens]

theorem readsValue_quoted {E : Ext} (hE : PrintsLeaves E) {Y : Syn} {p : Toks} {v : VKind} (h : ReadsValue Y p v []) (hv : PlainLit v) :
    Quoted E p (Text.print E (shownValue v)) := by
  cases h with
  | longest i _ used _ h he hmax =>
    rw [readsAs_quoted hE h hv]
    generalize hr : ([] : Toks) = r at h
    have all : ∀ n, [] = p.drop n → Quoted E p (E.render (p.take n)) := by
      intro n e
      rw [List.take_of_length_le (by simpa using e.symm)]
      exact .tokens p
    cases h with
    | int h => subst hr; exact .leaf h
    | negInt h h' => cases hv.1
    | str h => subst hr; exact .leaf h
    | underscore h => subst hr; exact .leaf h
    | ident h _ => subst hr; exact .leaf h
    | path n h => exact all _ hr
    | type n h => exact all _ hr
    | expr n h => exact all _ hr
  | tokens used _ hn h hc he =>
    simp only [List.append_nil] at h
    rw [h]; simpa [shownValue, Text.print, VKind.toTokens] using Quoted.tokens _

theorem readsExpr_quoted {E : Ext} (hE : PrintsLeaves E) {known : Str → Bool} {Y : Syn} {p : Toks} {e : Expr} (h : ReadsExpr known Y p e [])
    (he : PlainArg e) : Quoted E p (Text.print E (exprText e)) := by
  cases he with
  | value id k hk =>
    cases h with
    | value _ hn hv => rw [exprText]; exact readsValue_quoted hE hv hk
  | call id n e r =>
    cases h with
    | call _ _ hc ha =>
      cases hc with
      | mk h1 _ _ h2 =>
        have : ∀ (rid : Nat) (raw : Toks), Text.print E (exprText (.call id n [e] (some (rid, raw)))) = n ++ c! "(" ++ E.render raw ++ c! ")" := by
          intro rid raw; simp [exprText, Text.print]
        exact this _ _ ▸ .call n _ h1 h2

theorem readsPieces_quoted {E : Ext} (hE : PrintsLeaves E) {known : Str → Bool} {Y : Syn} : ∀ {ps : List Toks} {es : List Expr},
    ReadsPieces known Y ps es → (∀ e ∈ es, PlainArg e) → QuotedAll E ps ((exprTexts es).map (Text.print E))
  | _, _, .nil, _ => .nil
  | _, _, .cons h hs, ha => by
    rw [exprTexts, List.map_cons]
    exact .cons (readsExpr_quoted hE h (ha _ (by simp))) (readsPieces_quoted hE hs fun e he => ha e (by simp [he]))

/-- **C68**, partly: a call with one argument is quoted with the text of what is between the parentheses. A call with several arguments
(with nothing left over after one of them) is quoted with the texts of the arguments if these are not calls with several
arguments or unusual literals. What is missing: other calls, see below. -/
theorem C68_quotes_call_partial {E : Ext} (hE : PrintsLeaves E) {known : Str → Bool} {Y : Syn} {ts rest : Toks} {id : Nat} {n : Str}
    {args : List Expr} {r : Option (Nat × Toks)} (h : ReadsExpr known Y ts (.call id n args r) rest) :
    ∃ raw, CallAt known ts n raw rest ∧
      (args.length = 1 → Text.print E (exprText (.call id n args r)) = n ++ c! "(" ++ E.render raw ++ c! ")") ∧
      (args.length ≠ 1 → (∀ p ∈ pieces raw, ¬ Trailing known Y p) → (∀ a ∈ args, PlainArg a) →
        ∃ texts, QuotedAll E (pieces raw) texts ∧
          Text.print E (exprText (.call id n args r)) = n ++ c! "(" ++ (c! ", ").intercalate texts ++ c! ")") := by
  have many : ∀ r', args.length ≠ 1 → Text.print E (exprText (.call id n args r')) =
      n ++ c! "(" ++ (c! ", ").intercalate ((exprTexts args).map (Text.print E)) ++ c! ")" := by
    intro r' hl
    have : exprText (.call id n args r') = [.str n, .str c! "("] ++ [.str c! ", "].intercalate (exprTexts args) ++ [.str c! ")"] := by
      match args, r', hl with
      | [], _, _ => simp only [exprText]
      | [e], none, _ => simp only [exprText]
      | [e], some _, hl => exact (hl rfl).elim
      | _ :: _ :: _, _, _ => simp only [exprText]
    rw [this, print_append, print_append, print_intercalate]
    simp [Text.print]
  cases h with
  | call _ rid hc ha =>
    refine ⟨_, hc, fun hl => ?_, fun hl _ hpl => ⟨_, readsPieces_quoted hE ha hpl, many _ hl⟩⟩
    match args, hl with
    | [e], _ => simp [exprText, Text.print]
  | dropped _ rid hc hp he =>
    exact ⟨_, hc, fun hl => by simp at hl, fun _ hp' _ => (hp' _ hp ⟨_, _, _, he⟩).elim⟩

theorem demo_leaves : PrintsLeaves Ext.demo := ⟨fun _ => by simp [Ext.demo, Tok.demoRenderL, Tok.demoRender], fun _ _ => by simp [Ext.demo, Tok.demoRenderL, Tok.demoRender], fun _ _ => by simp [Ext.demo, Tok.demoRenderL, Tok.demoRender]⟩

/-- `x = upper(…), { struct x {} }` -/
def demoUpper (args : Toks) : Invocation := .compose [id' "x", eq', id' "upper", paren args, comma, brace [id' "struct", id' "x", brace []]]

/-- The message of the output for `x = upper(…), { struct x {} }`. -/
def demoMessage (args : Toks) : Option Str :=
  match output demoWorld [] (demoUpper args) (demoLuck 2 1) with
  | .compileError x => some (x.message Ext.demo [])
  | _ => none

/-- A string literal. -/
def str' (r v : Str) : Tok := .lit (.str r v)

/-- **C68** fails: `upper("a", "b", "c")` and `upper("a\", \"b", "c")`, or `upper(0x10, 1)` and `upper(16, 1)`, are quoted in the same way. -/
theorem C68_quotes_call_false :
    demoMessage [str' c! "\"a\"" c! "a", comma, str' c! "\"b\"" c! "b", comma, str' c! "\"c\"" c! "c"] =
      some c! "SignatureError: function upper(str) -> str | upper(ident) -> ident has been called with incompatible arguments: upper(\"a\", \"b\", \"c\")" ∧
    demoMessage [str' c! "\"a\\\", \\\"b\"" c! "a\", \"b", comma, str' c! "\"c\"" c! "c"] =
      demoMessage [str' c! "\"a\"" c! "a", comma, str' c! "\"b\"" c! "b", comma, str' c! "\"c\"" c! "c"] ∧
    demoMessage [.lit (.int c! "0x10" 16), comma, .lit (.int c! "1" 1)] = demoMessage [.lit (.int c! "16" 16), comma, .lit (.int c! "1" 1)] ∧
    demoMessage [.lit (.int c! "16" 16), comma, .lit (.int c! "1" 1)] ≠ none := by
  refine ⟨by decide +kernel, by decide +kernel, by decide +kernel, by decide +kernel⟩

/-- **C68** fails: `upper(lower(a) b, c)` is quoted as `upper()`. -/
theorem C68_arguments_dropped_false : demoMessage [id' "lower", paren [id' "a"], id' "b", comma, id' "c"] =
    some c! "SignatureError: function upper(str) -> str | upper(ident) -> ident has been called with incompatible arguments: upper()" := by
  decide +kernel

/-- `upper(a, 1)` is quoted as it is written. -/
example : demoMessage [id' "a", comma, .lit (.int c! "1" 1)] =
    some c! "SignatureError: function upper(str) -> str | upper(ident) -> ident has been called with incompatible arguments: upper(a, 1)" := by
  decide +kernel

example : ∃ e, ReadsExpr isBuiltin demoWorld.Y [id' "upper", paren [id' "a", comma, .lit (.int c! "1" 1)]] e [] ∧
    ∃ id n a b r, e = .call id n [a, b] r ∧ PlainArg a ∧ PlainArg b := by
  have h := (parseE_ok demoWorld.Y isBuiltin (fun k => k) [id' "upper", paren [id' "a", comma, .lit (.int c! "1" 1)]] 0).cases
  rcases h with ⟨e, r, k', h1, g⟩ | ⟨_, _, _, h⟩
  · cases h1.symm.trans (rfl : parseE demoWorld.Y isBuiltin (fun k => k) [id' "upper", paren [id' "a", comma, .lit (.int c! "1" 1)]] 0 = _)
    exact ⟨_, g.reads, _, _, _, _, _, rfl, .value _ _ trivial, .value _ _ ⟨rfl, rfl⟩⟩
  · exact h.elim

/-- `x = concat(a, "b c"), { struct x {} }` -/
example : ∃ x, output demoWorld [] (.compose [id' "x", eq', id' "concat", paren [id' "a", comma, str' c! "\"b c\"" c! "b c"], comma,
      brace [id' "struct", id' "x", brace []]]) (demoLuck 2 1) = .compileError x ∧ errorType x = .eval ∧
    x.message Ext.demo [] = c! "EvalError: Failed to produce a valid identifier from concatenated arguments: a, \"b c\"" := by
  refine ⟨.evalError [[id' "a"], [str' c! "\"b c\"" c! "b c"]], by decide +kernel, rfl, by decide +kernel⟩

/-- `for x in [a, 1] { struct x {} }` -/
example : ∃ x, output demoStrict [] (.compose demoFail) (demoLuck 2 1) = .compileError x ∧ errorType x = .substitution ∧
    x.message Ext.demo c! "expected identifier" =
      c! "SubstitutionError: failed to substitute:\n\n  x\n\nwith:\n\n  1\n\nEncountered an error:\n\n  expected identifier" :=
  ⟨.substitution c! "x" c! "1", by decide +kernel, rfl, by decide +kernel⟩

/-- Different functions, different signatures. -/
example : (builtins.map sigText).length = 34 ∧ builtins.all (fun f => !f.name.contains '(') := by decide +kernel

end Verif.Props
