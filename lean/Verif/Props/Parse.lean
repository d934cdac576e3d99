import Verif.Proofs.ParseForms
import Verif.Model.Funcs
import Verif.Props.Visitor
/-!
# Properties C28, C44 to C50 and C58: parsing

`Y` stands for `syn`'s own parsers, `known` for the names of the functions, `ids` for the ids drawn from the global counter. The
relations `Reads…` are defined in `Spec/Syntax`.
-/

namespace Verif.Props
open Verif Spec

variable (Y : Syn) (known : Str → Bool) (ids : Nat → Nat)

/-! ## Examples -/

/-- Length of a path at the beginning. -/
def demoPathLen : Toks → Option Nat
  | .ident s :: .punct ':' true :: .punct ':' false :: ts => if keywords.contains s then none else (demoPathLen ts).map (· + 3)
  | .ident s :: _ => if keywords.contains s then none else some 1
  | _ => none

/-- Something in parentheses comes first. -/
def demoParen : Toks → Bool
  | .group .paren _ :: _ => true
  | _ => false

/-- Length of an expression at the beginning: a literal, a path, or a path applied to something in parentheses. -/
def demoExprLen : Toks → Option Nat
  | .lit _ :: _ => some 1
  | ts => (demoPathLen ts).map fun n => if demoParen (ts.drop n) then n + 1 else n

/-- A grammar for examples. -/
def Syn.demo : Syn := { Grammar.demo with path := demoPathLen, type := demoPathLen, expr := demoExprLen }

/-- The built-in functions. -/
def demoKnown (n : Str) : Bool := (builtinFuncs n).isSome

def id' (s : String) : Tok := .ident (S s)
def paren (ts : Toks) : Tok := .group .paren ts
def brace (ts : Toks) : Tok := .group .brace ts
def comma : Tok := .punct ',' false
def semi : Tok := .punct ';' false
def eq' : Tok := .punct '=' false

/-- A service in use by one invocation. -/
def demoService : Service := { pre := S "compose!: ", warnings := [], borrowed := 1 }

/-! ## C44 -/

/-- **C44**: reading a value never fails. Its kind is the one that takes the most tokens up to a comma or the end, the
earlier one of two that take the same; if none does, the value is all tokens up to the comma. -/
theorem C44_longest_match (ts : Toks) (k : Nat) : ∃ id v rest k', parseValue Y ids ts k = (.ok (.value id v, rest), k') ∧ Ends rest ∧
    ((∃ i used, ReadsAs Y i ts v used rest ∧ ∀ j v' used' rest', ReadsAs Y j ts v' used' rest' → Ends rest' →
        (flat used').length < (flat used).length ∨ (flat used').length = (flat used).length ∧ i ≤ j) ∨
      (∀ i v' used' rest', ReadsAs Y i ts v' used' rest' → ¬ Ends rest') ∧
        ∃ used, v = .tokens used ∧ ts = used ++ rest ∧ ∀ j, .punct ',' j ∉ used) := by
  obtain ⟨p, v, rest, k', h1, h2, -, -⟩ := parseValue_spec Y ids ts k
  refine ⟨_, v, rest, k', h1, (readsValue_ends h2).1, ?_⟩
  cases h2 with
  | longest i v used rest h he hmax =>
    refine .inl ⟨i, used, h, fun j v' used' rest' h' he' => ?_⟩
    have h1 := hmax _ _ _ _ h' he'
    omega
  | tokens used rest hn h hc he => exact .inr ⟨hn, used, rfl, h, hc⟩

/-- The kinds: `a::b, c` is read as a path, although a type and an expression could be read as well; an identifier would not
end at the comma. -/
example : (parseValue Syn.demo (fun k => k) [id' "a", .punct ':' true, .punct ':' false, id' "b", comma, id' "c"] 7).1 =
    .ok (.value 7 (.path [id' "a", .punct ':' true, .punct ':' false, id' "b"]), [comma, id' "c"]) := by rfl
example : (parseValue Syn.demo (fun k => k) [id' "a", paren [], comma] 7).1 = .ok (.value 7 (.expr [id' "a", paren []]), [comma]) := by rfl
example : (parseValue Syn.demo (fun k => k) [id' "a", id' "b", comma] 7).1 = .ok (.value 7 (.tokens [id' "a", id' "b"]), [comma]) := by rfl

/-! ## C28 -/

/-- **C28**: a name that is not a function, with anything in parentheses after it, is read as a value. -/
theorem C28_read_as_value {n : Str} (hn : known n = false) (raw rest : Toks) (k : Nat) :
    ∃ id v r k', parseE Y known ids (.ident n :: .group .paren raw :: rest) k = (.ok (.value id v, r), k') ∧
      ReadsValue Y (.ident n :: .group .paren raw :: rest) v r := by
  rcases (parseE_ok Y known ids (.ident n :: .group .paren raw :: rest) k).cases with ⟨e, r, k', h1, g⟩ | ⟨_, _, _, h⟩
  · cases g.reads with
    | call id rid h => cases h with | mk hf hk _ _ => simp at hf; rw [← hf.1, hn] at hk; cases hk
    | dropped id rid h => cases h with | mk hf hk _ _ => simp at hf; rw [← hf.1, hn] at hk; cases hk
    | value id _ h => exact ⟨id, _, r, k', h1, h⟩
  · exact h.elim

/-- **C28**: whatever the input, the only error the parser reports is a syntax error, never an undefined function; and it never
panics. -/
theorem C28_only_syntax_errors (ts : Toks) (k : Nat) (sv : Service) (hb : 1 ≤ sv.borrowed) :
    (∀ r, (parseRawAst Y known ids ts k (some sv)).1 = r → (∃ a, r = .ok a) ∨ r = .err .parse) ∧
      ∀ r, (parseAttr Y known ids ts k (some sv)).1 = r → (∃ a, r = .ok a) ∨ r = .err .parse := by
  constructor
  · rintro _ rfl
    generalize hx : parseRawAst Y known ids ts k (some sv) = x
    cases hx ▸ parseRawAst_outcome Y known ids ts k sv hb with
    | ok a => exact .inl ⟨a, rfl⟩
    | err => exact .inr rfl
  · rintro _ rfl
    generalize hx : parseAttr Y known ids ts k (some sv) = x
    cases hx ▸ parseAttr_outcome Y known ids ts k sv hb with
    | ok a => exact .inl ⟨a, rfl⟩
    | err => exact .inr rfl

example : (parseE Syn.demo demoKnown (fun k => k) [id' "uper", paren [id' "a"]] 0).1 =
    .ok (.value 0 (.expr [id' "uper", paren [id' "a"]]), []) := by rfl

/-! ## C48 -/

theorem readsPieces_mem {known Y ps es} (h : ReadsPieces known Y ps es) {p : Toks} (hp : p ∈ ps) : ∃ e, ReadsExpr known Y p e [] := by
  induction ps generalizing es with
  | nil => cases hp
  | cons q ps ih =>
    cases h with
    | cons h hs =>
      rcases List.mem_cons.mp hp with rfl | hp
      · exact ⟨_, h⟩
      · exact ih hs hp

/-- **C48**, the raw argument: a call to a known function is read up to its closing parenthesis, and keeps all the tokens. -/
theorem C48_raw {ts : Toks} {n : Str} {raw rest : Toks} (h : CallAt known ts n raw rest) (k : Nat) :
    ∃ id args rid k', parseE Y known ids ts k = (.ok (.call id n args (some (rid, raw)), rest), k') := by
  rcases (parseE_ok Y known ids ts k).cases with ⟨e, r, k', h1, g⟩ | ⟨_, _, _, h⟩
  · cases g.reads with
    | call id rid h' => obtain ⟨rfl, rfl, rfl⟩ := callAt_unique h h'; exact ⟨_, _, _, _, h1⟩
    | dropped id rid h' => obtain ⟨rfl, rfl, rfl⟩ := callAt_unique h h'; exact ⟨_, _, _, _, h1⟩
    | value id hn => exact (hn _ _ _ h).elim
  · exact h.elim

/-- **C48** (partial: nothing is left over after a piece, see `C48_false`): the arguments are the pieces between the top-level
commas, each read as an expression on its own. -/
theorem C48_arguments_partial {ts : Toks} {n : Str} {raw rest : Toks} (h : CallAt known ts n raw rest)
    (hp : ∀ p ∈ pieces raw, ¬ Trailing known Y p) (k : Nat) :
    ∃ id args rid k', parseE Y known ids ts k = (.ok (.call id n args (some (rid, raw)), rest), k') ∧
      ReadsPieces known Y (pieces raw) args := by
  rcases (parseE_ok Y known ids ts k).cases with ⟨e, r, k', h1, g⟩ | ⟨_, _, _, h⟩
  · cases g.reads with
    | call id rid h' ha => obtain ⟨rfl, rfl, rfl⟩ := callAt_unique h h'; exact ⟨_, _, _, _, h1, ha⟩
    | dropped id rid h' hd he =>
      obtain ⟨rfl, rfl, rfl⟩ := callAt_unique h h'
      exact (hp _ hd ⟨_, _, _, he⟩).elim
    | value id hn => exact (hn _ _ _ h).elim
  · exact h.elim

/-- **C48**: if something is left over after a piece, the call has no arguments at all. -/
theorem C48_dropped {ts : Toks} {n : Str} {raw rest : Toks} (h : CallAt known ts n raw rest)
    (hp : ∃ p ∈ pieces raw, Trailing known Y p) (k : Nat) :
    ∃ id rid k', parseE Y known ids ts k = (.ok (.call id n [] (some (rid, raw)), rest), k') := by
  rcases (parseE_ok Y known ids ts k).cases with ⟨e, r, k', h1, g⟩ | ⟨_, _, _, h⟩
  · cases g.reads with
    | call id rid h' ha =>
      obtain ⟨rfl, rfl, rfl⟩ := callAt_unique h h'
      obtain ⟨p, h2, e, t, r, h3⟩ := hp
      obtain ⟨e', h4⟩ := readsPieces_mem ha h2
      have := ((parseE_exact Y known (fun x => x) _).unique (Nat.le_refl _) h3 h4).1
      cases this
    | dropped id rid h' => obtain ⟨rfl, rfl, rfl⟩ := callAt_unique h h'; exact ⟨_, _, _, h1⟩
    | value id hn => exact (hn _ _ _ h).elim
  · exact h.elim

/-- **C48**: something is left over after a piece without macro variables only if it is a call followed by something else. -/
theorem C48_left_over {p : Toks} (hc : ∀ j, .punct ',' j ∉ p) (hp : ∀ c, .group .none c ∉ p) :
    Trailing known Y p ↔ ∃ n raw t rest, CallAt known p n raw (t :: rest) := by
  constructor
  · rintro ⟨e, t, rest, h⟩
    cases h with
    | call id rid h _ => exact ⟨_, _, _, _, h⟩
    | dropped id rid h _ _ => exact ⟨_, _, _, _, h⟩
    | value id hn h =>
      obtain ⟨h1, h2⟩ := readsValue_ends h
      obtain ⟨u, hu⟩ := h2.suffix hp
      cases h1 with
      | comma j r => exact (hc j (by rw [← hu]; simp)).elim
  · rintro ⟨n, raw, t, rest, h⟩
    obtain ⟨id, args, rid, k', h1⟩ := C48_raw Y known (fun x => x) h 0
    rcases (parseE_ok Y known (fun x => x) p 0).cases with ⟨e, r, k', h2, g⟩ | ⟨_, _, _, h⟩
    · rw [h2] at h1
      simp at h1
      obtain ⟨⟨-, rfl⟩, -⟩ := h1
      exact ⟨_, _, _, g.reads⟩
    · exact h.elim

/-- The claim **C48** is false: `concat(lower(a) b, c)` is a call with the two pieces `lower(a) b` and `c`, but without arguments. -/
theorem C48_false : ∃ raw : Toks, (pieces raw).length = 2 ∧ ∀ (Y : Syn) (ids : Nat → Nat) (k : Nat),
    ∃ id rid k', parseE Y demoKnown ids [id' "concat", paren raw] k = (.ok (.call id (S "concat") [] (some (rid, raw)), []), k') := by
  refine ⟨[id' "lower", paren [id' "a"], id' "b", comma, id' "c"], by decide, fun Y ids k => ?_⟩
  refine C48_dropped Y demoKnown ids (.of _ _ (by decide) (by decide))
    ⟨[id' "lower", paren [id' "a"], id' "b"], by simp [pieces, id', comma, paren], ?_⟩ k
  refine (C48_left_over Y demoKnown (by simp [id', paren]) (by simp [id', paren])).mpr ⟨S "lower", [id' "a"], id' "b", [], ?_⟩
  exact .of _ _ (by decide) (by decide)

theorem pieces_notComma {t : Tok} (h : ∀ j, t ≠ .punct ',' j) (ts : Toks) :
    pieces (t :: ts) = match pieces ts with | [] => [[t]] | p :: ps => (t :: p) :: ps := by
  rcases t with _ | ⟨d, j⟩ | _ | _
  · rfl
  · have : d ≠ ',' := fun e => h j (by rw [e])
    simp only [pieces]
    cases pieces ts <;> rfl
  · rfl
  · rfl

theorem pieces_piece {p : Toks} (hp : p ≠ []) (hc : ∀ j, .punct ',' j ∉ p) : pieces p = [p] := by
  induction p with
  | nil => exact (hp rfl).elim
  | cons t p ih =>
    rw [pieces_notComma (by rintro j rfl; exact hc j (by simp))]
    cases p with
    | nil => rfl
    | cons t' p => rw [ih (by simp) (fun j hj => hc j (by simp [hj]))]

theorem pieces_append {p : Toks} (hc : ∀ j, .punct ',' j ∉ p) (j : Bool) (ts : Toks) : pieces (p ++ .punct ',' j :: ts) = p :: pieces ts := by
  induction p with
  | nil => simp [pieces]
  | cons t p ih =>
    rw [List.cons_append, pieces_notComma (by rintro j rfl; exact hc j (by simp)), ih (fun j hj => hc j (by simp [hj]))]

/-- **C48**, what the pieces are: the only lists of tokens without commas of their own that make up the tokens when joined
with commas, a comma at the end being optional. -/
theorem C48_pieces (ts : Toks) (ps : List Toks) : Joined ps ts ↔ ps = pieces ts := by
  constructor
  · intro h
    induction h with
    | nil => rfl
    | last hc hp => rw [pieces_piece hp hc]
    | cons j hc h ih => rw [pieces_append hc, ih]
  · rintro rfl
    suffices ∀ n (ts : Toks), ts.length < n → Joined (pieces ts) ts from this (ts.length + 1) ts (by omega)
    intro n
    induction n with
    | zero => intro ts h; omega
    | succ n ih =>
      intro ts hn
      obtain ⟨h1, h2, h3⟩ := untilComma_spec ts
      generalize (untilComma ts).1 = p at h1 h2 h3
      generalize (untilComma ts).2 = r at h1 h2 h3
      subst h1
      cases h3 with
      | nil =>
        simp only [List.append_nil]
        by_cases hp : p = []
        · subst hp; exact .nil
        · rw [pieces_piece hp h2]; exact .last h2 hp
      | comma j r =>
        rw [pieces_append h2]
        exact .cons j h2 (ih r (by simp at hn; omega))

example : Joined [[id' "a", paren [id' "b", comma, id' "c"]], [], [id' "d"]]
    [id' "a", paren [id' "b", comma, id' "c"], comma, comma, id' "d", comma] :=
  .cons (p := [id' "a", paren [id' "b", comma, id' "c"]]) false (by simp [id', paren])
    (.cons (p := []) false (by simp) (.cons (p := [id' "d"]) false (by simp [id']) .nil))

example : (parseE Syn.demo demoKnown (fun k => k) [id' "concat", paren [id' "a", comma, id' "lower", paren [id' "B"], comma]] 0).1 =
    .ok (.call 5 (S "concat") [.value 0 (.ident (S "a")), .call 3 (S "lower") [.value 1 (.ident (S "B"))] (some (2, [id' "B"]))]
      (some (4, [id' "a", comma, id' "lower", paren [id' "B"], comma])), []) := by rfl

/-! ## C58 -/

/-- **C58**: `compose!` accepts exactly the inputs of the grammar, and reads them in the only possible way. -/
theorem C58_function_like (ts : Toks) (k : Nat) (sv : Service) (hb : 1 ≤ sv.borrowed) :
    (∀ a, (parseRawAst Y known ids ts k (some sv)).1 = .ok a → ReadsInput known Y ts a) ∧
      ∀ a, ReadsInput known Y ts a → ∃ a', (parseRawAst Y known ids ts k (some sv)).1 = .ok a' ∧ astErase a' = astErase a := by
  generalize hx : parseRawAst Y known ids ts k (some sv) = x
  cases hx ▸ parseRawAst_outcome Y known ids ts k sv hb with
  | ok a k' h hu => exact ⟨fun a' e => by cases e; exact h, fun a' h' => ⟨a, rfl, (hu a' h').symm⟩⟩
  | err k' w h => exact ⟨fun a' e => (by cases e), fun a' h' => (h a' h').elim⟩

/-- **C58**: and so does `#[compose_item]` for its arguments. -/
theorem C58_attribute (ts : Toks) (k : Nat) (sv : Service) (hb : 1 ≤ sv.borrowed) :
    (∀ a, (parseAttr Y known ids ts k (some sv)).1 = .ok a → ReadsAttr known Y ts a) ∧
      ∀ a, ReadsAttr known Y ts a → ∃ a', (parseAttr Y known ids ts k (some sv)).1 = .ok a' ∧ astErase a' = astErase a := by
  generalize hx : parseAttr Y known ids ts k (some sv) = x
  cases hx ▸ parseAttr_outcome Y known ids ts k sv hb with
  | ok a k' h hu => exact ⟨fun a' e => by cases e; exact h, fun a' h' => ⟨a, rfl, (hu a' h').symm⟩⟩
  | err k' w h => exact ⟨fun a' e => (by cases e), fun a' h' => (h a' h').elim⟩

/-- `for (a, b) in [(x, 1), (y, 2)] c = concat(a, b), { a }` -/
def demoInput : Toks :=
  [id' "for", paren [id' "a", comma, id' "b"], id' "in",
    .group .bracket [paren [id' "x", comma, .lit (.int (S "1") 1)], comma, paren [id' "y", comma, .lit (.int (S "2") 2)]],
    id' "c", eq', id' "concat", paren [id' "a", comma, id' "b"], comma, brace [id' "a"]]

example : ∃ a, (parseRawAst Syn.demo demoKnown (fun k => k) demoInput 0 (some demoService)).1 = .ok a ∧ astErase a =
    ((some [(.tuple [.val (S "a"), .val (S "b")],
        [.tuple [.val (.value 0 (.ident (S "x"))), .val (.value 0 (.litInt ⟨false, S "1", 1⟩))],
         .tuple [.val (.value 0 (.ident (S "y"))), .val (.value 0 (.litInt ⟨false, S "2", 2⟩))]])],
      some ([(S "c", .call 0 (S "concat") [.value 0 (.ident (S "a")), .value 0 (.ident (S "b"))] (some (0, [id' "a", comma, id' "b"])))], some true)),
     [.other [id' "a"]]) := ⟨_, rfl, rfl⟩

/-! ## C45 -/

theorem specComma {bs : List Bool} (hb : ∀ b ∈ bs, ∀ c ∈ bs, b = c) {b : Bool} (h : b ∈ bs) : bs.head? = some b := by
  cases bs with
  | nil => simp at h
  | cons c bs => simp [hb c (by simp) b h]

/-- **C45**: definitions before a block, with the separators `bs` after them and possibly one more after the block, are rejected if
both `,` and `;` occur among them. -/
theorem C45_function_like {ts mid rest b tail : Toks} {ls : Option PLoops} {items : List PItem} {bs cs : List Bool}
    (hl : ReadsOptLoops Y known ts ls mid) (hi : ReadsItems known Y mid items bs rest) (hf : First rest (.group .brace b) tail)
    (ht : tail = [] ∧ cs = [] ∨ ∃ c t, tail = [t] ∧ IsSep c t ∧ cs = [c]) (h1 : true ∈ bs ++ cs) (h2 : false ∈ bs ++ cs)
    (k : Nat) (sv : Service) (hb : 1 ≤ sv.borrowed) : (parseRawAst Y known ids ts k (some sv)).1 = .err .parse := by
  generalize hx : parseRawAst Y known ids ts k (some sv) = x
  cases hx ▸ parseRawAst_outcome Y known ids ts k sv hb with
  | err => rfl
  | ok a k' h hu hk0 hd0 =>
    exfalso
    cases h with
    | mk id h hf' hbl ht' =>
      rename_i rest' b' tail' ls' s' block
      cases h with
      | mk hl' hs' =>
        rename_i mid'
        obtain ⟨rfl, -⟩ := (optLoops_exact Y known ids _).unique (Nat.le_refl _) hl hl'
        obtain ⟨n, r, hn, hk⟩ := readsItems_head hi
        rcases hs' with ⟨-, -, hs'⟩ | ⟨s2, rfl, -, hs'⟩
        · exact hk (hs' _ _ hn)
        · cases hs' with
          | mk id2 hi' hb' =>
            rename_i items' bs'
            have := (parseItems_exact Y known ids (tokCount mid' + 1) none mid' 0 (by omega)).cases
            rcases this with ⟨a, r2, k2, -, g⟩ | ⟨e, k2, -, -, -, hno⟩
            · obtain ⟨bs2, -, -, -, hu2⟩ := g.reads
              have e1 := hu2 _ _ _ hi
              have e2 := hu2 _ _ _ hi'
              have hbs : bs' = bs := e2.2.1.trans e1.2.1.symm
              have htl : rest' = rest := e2.1.trans e1.1.symm
              subst htl
              obtain ⟨e3, rfl⟩ := hf.unique hf'
              simp at e3
              subst e3
              subst hbs
              have hcs : ∀ c ∈ cs, bs'.head? = some c := by
                rcases ht with ⟨-, rfl⟩ | ⟨c, t, rfl, hs, rfl⟩
                · simp
                · rcases ht' with h | ⟨c', t', h, hs', hc⟩
                  · cases h
                  · simp at h
                    subst h
                    have := sep_unique hs hs'
                    subst this
                    intro c' hc'
                    simp at hc'
                    subst hc'
                    exact hc _ rfl
              have hall : ∀ c ∈ bs' ++ cs, bs'.head? = some c := by
                intro c hc
                rcases List.mem_append.mp hc with hc | hc
                · exact specComma hb' hc
                · exact hcs c hc
              have := (hall _ h1).symm.trans (hall _ h2)
              simp at this
            · exact hno _ _ _ hi' (agree_none.mpr hb')

/-- **C45**: conversely, without mixing the definitions are accepted. -/
theorem C45_accepted {ts mid rest b tail : Toks} {ls : Option PLoops} {items : List PItem} {bs cs : List Bool} {block : List Stmt}
    (hl : ReadsOptLoops Y known ts ls mid) (hi : ReadsItems known Y mid items bs rest) (hf : First rest (.group .brace b) tail)
    (ht : tail = [] ∧ cs = [] ∨ ∃ c t, tail = [t] ∧ IsSep c t ∧ cs = [c]) (hsame : ∀ c ∈ bs ++ cs, ∀ d ∈ bs ++ cs, c = d)
    (hbl : Y.parseBlock b = some block) (k : Nat) (sv : Service) (hb : 1 ≤ sv.borrowed) :
    ∃ a, (parseRawAst Y known ids ts k (some sv)).1 = .ok a := by
  have hbs : ∀ c ∈ bs, ∀ d ∈ bs, c = d := fun c hc d hd => hsame c (by simp [hc]) d (by simp [hd])
  have hr : ReadsInput known Y ts ⟨0, ls, some ⟨0, items, bs.head?⟩, block⟩ := by
    refine .mk 0 (.mk hl (.inr ⟨_, rfl, readsItems_head hi, .mk 0 hi hbs⟩)) hf hbl ?_
    rcases ht with ⟨rfl, -⟩ | ⟨c, t, rfl, hs, rfl⟩
    · exact .inl rfl
    · refine .inr ⟨c, t, rfl, hs, ?_⟩
      intro s' e
      cases e
      have := readsItems_sep Y known (by rintro rfl; simp at hf) hi
      cases bs with
      | nil => exact (this rfl).elim
      | cons b0 bs => simp [hsame b0 (by simp) c (by simp)]
  obtain ⟨a', h, -⟩ := (C58_function_like Y known ids ts k sv hb).2 _ hr
  exact ⟨a', h⟩

/-- **C45** (partial: without the one separator that may follow the definitions, see `C45_false`): in an attribute, definitions with both
separators are rejected. -/
theorem C45_attribute_partial {ts mid rest : Toks} {ls : Option PLoops} {items : List PItem} {bs : List Bool}
    (hl : ReadsOptLoops Y known ts ls mid) (hi : ReadsItems known Y mid items bs rest) (h1 : true ∈ bs) (h2 : false ∈ bs)
    (k : Nat) (sv : Service) (hb : 1 ≤ sv.borrowed) : (parseAttr Y known ids ts k (some sv)).1 = .err .parse := by
  generalize hx : parseAttr Y known ids ts k (some sv) = x
  cases hx ▸ parseAttr_outcome Y known ids ts k sv hb with
  | err => rfl
  | ok a k' h hu hk0 hd0 =>
    exfalso
    cases h with
    | mk id h ht' =>
      rename_i tail' ls' s'
      cases h with
      | mk hl' hs' =>
        rename_i mid'
        obtain ⟨rfl, -⟩ := (optLoops_exact Y known ids _).unique (Nat.le_refl _) hl hl'
        obtain ⟨n, r, hn, hk⟩ := readsItems_head hi
        rcases hs' with ⟨-, -, hs'⟩ | ⟨s2, rfl, -, hs'⟩
        · exact hk (hs' _ _ hn)
        · cases hs' with
          | mk id2 hi' hb' =>
            rename_i items' bs'
            have := (parseItems_exact Y known ids (tokCount mid' + 1) none mid' 0 (by omega)).cases
            rcases this with ⟨a, r2, k2, -, g⟩ | ⟨e, k2, -, -, -, hno⟩
            · obtain ⟨bs2, -, -, -, hu2⟩ := g.reads
              have e1 := hu2 _ _ _ hi
              have e2 := hu2 _ _ _ hi'
              have hbs : bs' = bs := e2.2.1.trans e1.2.1.symm
              subst hbs
              have := hb' _ h1 _ h2
              cases this
            · exact hno _ _ _ hi' (agree_none.mpr hb')

/-- The claim **C45** is false for attributes: `a = lower(X),;` is accepted, with both separators. -/
theorem C45_false : ∃ a, (parseAttr Syn.demo demoKnown (fun k => k)
    [id' "a", eq', id' "lower", paren [id' "X"], comma, semi] 0 (some demoService)).1 = .ok a := ⟨_, rfl⟩

example : (parseRawAst Syn.demo demoKnown (fun k => k)
    [id' "a", eq', id' "lower", paren [id' "X"], semi, id' "b", eq', id' "a", comma, brace []] 0 (some demoService)).1 = .err .parse := by rfl

/-! ## C47 -/

/-- **C47**: a separator after the block, the same as between the definitions, does not change what is parsed: the input with
it is accepted if and only if the input without it is, with the same result. -/
theorem C47_trailing_separator (h1 : StopsAtBlock Y.path) (h2 : StopsAtBlock Y.type) (h3 : StopsAtBlock Y.expr) {x b : Toks} {t : Tok} {c : Bool}
    (hs : IsSep c t) (k : Nat) (sv : Service) (hb : 1 ≤ sv.borrowed) :
    (∀ a, (parseRawAst Y known ids (x ++ [.group .brace b]) k (some sv)).1 = .ok a → (∀ s, a.spec = some s → s.comma = some c) →
      ∃ a', (parseRawAst Y known ids (x ++ [.group .brace b, t]) k (some sv)).1 = .ok a' ∧ astErase a' = astErase a) ∧
    ∀ a', (parseRawAst Y known ids (x ++ [.group .brace b, t]) k (some sv)).1 = .ok a' →
      ∃ a, (parseRawAst Y known ids (x ++ [.group .brace b]) k (some sv)).1 = .ok a ∧ astErase a = astErase a' := by
  constructor
  · intro a ha hc
    refine (C58_function_like Y known ids _ k sv hb).2 a ?_
    exact (readsInput_tail h1 h2 h3 hs).mpr ⟨(C58_function_like Y known ids _ k sv hb).1 a ha, hc⟩
  · intro a ha
    refine (C58_function_like Y known ids _ k sv hb).2 a ?_
    exact ((readsInput_tail h1 h2 h3 hs).mp ((C58_function_like Y known ids _ k sv hb).1 a ha)).1

theorem demoPathLen_stop (g : Tok) (hg : ∀ s, g ≠ .ident s) (hp : ∀ c j, g = .punct c j → c ≠ ':') (r : Toks) : ∀ u : Toks, demoPathLen (u ++ g :: r) = demoPathLen (u ++ [g])
  | [] => by
    rcases g with s | ⟨c, j⟩ | _ | _
    · exact (hg s rfl).elim
    · simp [demoPathLen]
    · simp [demoPathLen]
    · simp [demoPathLen]
  | t :: u => by
    rcases t with s | ⟨c, j⟩ | _ | _ <;> try (simp [demoPathLen]; done)
    rcases u with _ | ⟨t2, u⟩
    · rcases g with s | ⟨c, j⟩ | _ | _
      · exact (hg s rfl).elim
      · have := hp c j rfl
        simp [demoPathLen, this]
      · simp [demoPathLen]
      · simp [demoPathLen]
    · rcases t2 with s | ⟨c, j⟩ | _ | _ <;> try (simp [demoPathLen]; done)
      by_cases hc : c = ':' ∧ j = true
      · obtain ⟨rfl, rfl⟩ := hc
        rcases u with _ | ⟨t3, u⟩
        · rcases g with s | ⟨c, j⟩ | _ | _
          · exact (hg s rfl).elim
          · have := hp c j rfl
            simp [demoPathLen, this]
          · simp [demoPathLen]
          · simp [demoPathLen]
        · rcases t3 with s | ⟨c, j⟩ | _ | _ <;> try (simp [demoPathLen]; done)
          by_cases hc : c = ':' ∧ j = false
          · obtain ⟨rfl, rfl⟩ := hc
            simp [demoPathLen, demoPathLen_stop g hg hp r u]
          · simp [demoPathLen, hc]
      · simp [demoPathLen, hc]

theorem demoPathLen_le (g : Tok) (hg : ∀ s, g ≠ .ident s) : ∀ (u : Toks) n, demoPathLen (u ++ [g]) = some n → n ≤ u.length
  | [], n, h => by
    rcases g with s | ⟨c, j⟩ | _ | _
    · exact (hg s rfl).elim
    all_goals simp [demoPathLen] at h
  | t :: u, n, h => by
    unfold demoPathLen at h
    split at h
    · rename_i s ts e
      rcases u with _ | ⟨t2, _ | ⟨t3, u⟩⟩
      · simp at e
      · simp at e
        obtain ⟨-, -, e, rfl⟩ := e
        simp [demoPathLen] at h
      · simp at e
        obtain ⟨-, -, -, rfl⟩ := e
        split at h
        · cases h
        · simp at h
          obtain ⟨m, h, rfl⟩ := h
          have := demoPathLen_le g hg u m h
          simp
          omega
    · split at h
      · cases h
      · simp at h
        subst h
        simp
    · cases h

theorem demoExprLen_stop (g : Tok) (hg : ∀ s, g ≠ .ident s) (hp : ∀ c j, g = .punct c j → c ≠ ':') (r u : Toks) :
    demoExprLen (u ++ g :: r) = demoExprLen (u ++ [g]) := by
  have key : ((demoPathLen (u ++ g :: r)).map fun n => if demoParen ((u ++ g :: r).drop n) then n + 1 else n) =
      (demoPathLen (u ++ [g])).map fun n => if demoParen ((u ++ [g]).drop n) then n + 1 else n := by
    rw [demoPathLen_stop g hg hp r u]
    cases h : demoPathLen (u ++ [g]) with
    | none => rfl
    | some n =>
      have hn := demoPathLen_le g hg u n h
      have : demoParen ((u ++ g :: r).drop n) = demoParen ((u ++ [g]).drop n) := by
        rw [List.drop_append_of_le_length hn, List.drop_append_of_le_length hn]
        generalize u.drop n = d
        cases d with
        | nil => rcases g with _ | _ | _ | ⟨⟨⟩, _⟩ <;> rfl
        | cons t d => rcases t with _ | _ | _ | ⟨⟨⟩, _⟩ <;> rfl
      simp only [Option.map_some, this]
  cases u with
  | nil =>
    rcases g with s | ⟨c, j⟩ | l | ⟨d, c⟩
    · exact (hg s rfl).elim
    · exact key
    · rfl
    · exact key
  | cons t u =>
    rcases t with s | ⟨c, j⟩ | l | ⟨d, c⟩
    · exact key
    · exact key
    · rfl
    · exact key

/-- The hypotheses of `C47_trailing_separator` hold of the example grammar. -/
example : StopsAtBlock Syn.demo.path ∧ StopsAtBlock Syn.demo.type ∧ StopsAtBlock Syn.demo.expr :=
  ⟨fun u t b c _ => demoPathLen_stop (.group .brace b) (by simp) (by simp) [t] u,
    fun u t b c _ => demoPathLen_stop (.group .brace b) (by simp) (by simp) [t] u,
    fun u t b c _ => demoExprLen_stop (.group .brace b) (by simp) (by simp) [t] u⟩

example : ∃ a a', (parseRawAst Syn.demo demoKnown (fun k => k) demoInput 0 (some demoService)).1 = .ok a ∧ (∀ s, a.spec = some s → s.comma = some true) ∧
    (parseRawAst Syn.demo demoKnown (fun k => k) (demoInput ++ [comma]) 0 (some demoService)).1 = .ok a' ∧ astErase a' = astErase a :=
  ⟨_, _, rfl, by intro s h; cases h; rfl, rfl, rfl⟩

/-! ## C46 -/

/-- **C46**, parsing: if `compose!(defs { item })` is accepted, then `#[compose_item(defs)] item` is, with the same loops and
definitions, and with the item as the block. -/
theorem C46_same_tree (h1 : StopsAtSep Y.path) (h2 : StopsAtSep Y.type) (h3 : StopsAtSep Y.expr) {x b : Toks} (hx : Solid x) (k k' : Nat) (sv : Service)
    (hb : 1 ≤ sv.borrowed) {a : PAst} (ha : (parseRawAst Y known ids (x ++ [.group .brace b]) k (some sv)).1 = .ok a) :
    ∃ a', (parseAttr Y known ids x k' (some sv)).1 = .ok a' ∧ Y.parseBlock b = some a.block ∧
      astErase { a' with block := a.block } = astErase a := by
  obtain ⟨hc, hbl⟩ := (readsInput_attr h1 h2 h3 hx).mp ((C58_function_like Y known ids _ k sv hb).1 a ha)
  have hr : ReadsAttr known Y x { a with block := [] } := .mk a.id (ReadsClosed.header hc) (.inl rfl)
  obtain ⟨a', h4, h5⟩ := (C58_attribute Y known ids x k' sv hb).2 _ hr
  refine ⟨a', h4, hbl, ?_⟩
  simp only [astErase, Prod.mk.injEq] at h5 ⊢
  exact ⟨h5.1, trivial⟩

/-- **C46**, parsing: conversely, loops and definitions of an attribute, each definition with a separator after it, are accepted by
`compose!` when the item is put in braces after them. -/
theorem C46_same_tree_back (h1 : StopsAtSep Y.path) (h2 : StopsAtSep Y.type) (h3 : StopsAtSep Y.expr) {x b : Toks} (hx : Solid x) (k k' : Nat) (sv : Service)
    (hb : 1 ≤ sv.borrowed) {a : PAst} (ha : (parseAttr Y known ids x k (some sv)).1 = .ok a) (hc : ∃ h, ReadsClosed known Y x h [])
    {block : List Stmt} (hbl : Y.parseBlock b = some block) :
    ∃ a', (parseRawAst Y known ids (x ++ [.group .brace b]) k' (some sv)).1 = .ok a' ∧ astErase a' = astErase { a with block := block } := by
  obtain ⟨⟨ls, s⟩, hc⟩ := hc
  have hr : ReadsInput known Y (x ++ [.group .brace b]) ⟨0, ls, s, block⟩ := (readsInput_attr h1 h2 h3 hx).mpr ⟨hc, hbl⟩
  obtain ⟨a', h4, h5⟩ := (C58_function_like Y known ids _ k' sv hb).2 _ hr
  refine ⟨a', h4, ?_⟩
  obtain ⟨a2, h6, h7⟩ := (C58_attribute Y known ids x k sv hb).2 ⟨0, ls, s, []⟩ (.mk 0 (ReadsClosed.header hc) (.inl rfl))
  rw [ha] at h6
  cases h6
  rw [h5]
  simp only [astErase, Prod.mk.injEq] at h7 ⊢
  exact ⟨h7.1.symm, trivial⟩

/-- The claim **C46** is false for definitions ending in `;`: `#[compose_item(a = x;)]` defines `a` as the tokens `x ;`, but
`compose!(a = x; { … })` is rejected. -/
theorem C46_false : (∃ a, (parseAttr Syn.demo demoKnown (fun k => k) [id' "a", eq', id' "x", semi] 0 (some demoService)).1 = .ok a ∧
      a.spec.map (·.items.map itemErase) = some [(S "a", .value 0 (.tokens [id' "x", semi]))]) ∧
    ∀ b, (parseRawAst Syn.demo demoKnown (fun k => k) [id' "a", eq', id' "x", semi, brace b] 0 (some demoService)).1 = .err .parse :=
  ⟨⟨_, rfl, rfl⟩, fun _ => rfl⟩

/-- The hypotheses hold of the example grammar and of an attribute with loops and definitions. -/
example : StopsAtSep Syn.demo.path ∧ StopsAtSep Syn.demo.type ∧ StopsAtSep Syn.demo.expr := by
  have hp : StopsAtSep demoPathLen := by
    intro u t b hs
    cases hs with
    | comma j =>
      exact ⟨demoPathLen_stop (.punct ',' j) (by simp) (by simp) [.group .brace b] u, demoPathLen_le _ (by simp) u⟩
  refine ⟨hp, hp, ?_⟩
  intro u t b hs
  cases hs with
  | comma j =>
    refine ⟨demoExprLen_stop (.punct ',' j) (by simp) (by simp) [.group .brace b] u, ?_⟩
    intro n hn
    have key : ∀ n, ((demoPathLen (u ++ [.punct ',' j])).map fun n => if demoParen ((u ++ [Tok.punct ',' j]).drop n) then n + 1 else n) = some n → n ≤ u.length := by
      intro n hn
      simp at hn
      obtain ⟨m, hm, rfl⟩ := hn
      have := demoPathLen_le _ (by simp) u m hm
      split
      · rename_i h
        rw [List.drop_append_of_le_length this] at h
        rcases Nat.lt_or_ge m u.length with h4 | h4
        · exact h4
        · rw [List.drop_of_length_le h4] at h
          simp [demoParen] at h
      · exact this
    change demoExprLen (u ++ [.punct ',' j]) = some n at hn
    cases u with
    | nil => simp [demoExprLen, demoPathLen] at hn
    | cons t u =>
      rcases t with s | ⟨c, j⟩ | l | ⟨d, c⟩
      · exact key n hn
      · exact key n hn
      · simp [demoExprLen] at hn; subst hn; simp
      · exact key n hn

example : ∃ a a', (parseAttr Syn.demo demoKnown (fun k => k) demoInput.dropLast 0 (some demoService)).1 = .ok a ∧
    (parseRawAst Syn.demo demoKnown (fun k => k) demoInput 0 (some demoService)).1 = .ok a' ∧ (astErase a).1 = (astErase a').1 :=
  ⟨_, _, rfl, rfl, rfl⟩

/-! ## C49 -/

/-- A call is read in the same way whatever follows it. -/
theorem call_anywhere {v : Toks} {f : Str} {raw : Toks} (h : CallAt known v f raw []) :
    ∃ e, ∀ r, ReadsExpr known Y (v ++ r) e r := by
  have h0 := h
  cases h with
  | mk hf hk hn hf' =>
    rcases (parseE_ok Y known (fun x => x) v 0).cases with ⟨e, r, k', h1, g⟩ | ⟨_, _, _, h⟩
    · have hat : ∀ r, CallAt known (v ++ r) f raw r := fun r => .mk (hf.append r) hk hn (by simpa using hf'.append r)
      cases g.reads with
      | call id rid h' ha => obtain ⟨rfl, rfl, rfl⟩ := callAt_unique h0 h'; exact ⟨_, fun r => .call id rid (hat r) ha⟩
      | dropped id rid h' hp he => obtain ⟨rfl, rfl, rfl⟩ := callAt_unique h0 h'; exact ⟨_, fun r => .dropped id rid (hat r) hp he⟩
      | value id hn' => exact (hn' _ _ _ h0).elim
    · exact h.elim

theorem defs_items {l : List (Str × Toks)} (hne : l ≠ [])
    (hcalls : ∀ d ∈ l, d.1 ∉ keywords ∧ ∃ f raw, CallAt known d.2 f raw []) :
    ∃ items : List PItem, items.map (·.alias.2) = l.map (·.1) ∧ ∀ (b : Bool) (t : Tok) (tail : Toks), IsSep b t →
      (∀ n r, First tail (.ident n) r → n ∈ keywords) →
      ReadsItems known Y (defsToks t l tail) items (List.replicate l.length b) tail := by
  induction l with
  | nil => exact (hne rfl).elim
  | cons d l ih =>
    obtain ⟨n, v⟩ := d
    obtain ⟨hn, f, raw, hc⟩ := hcalls (n, v) (by simp)
    obtain ⟨e, he⟩ := call_anywhere Y known hc
    have hitem : ∀ (b : Bool) (t : Tok) r, IsSep b t → ReadsItem known Y (.ident n :: .punct '=' false :: (v ++ t :: r)) ⟨0, (0, n), 0, e⟩ (t :: r) :=
      fun b t r hs => .mk 0 0 0 (by simp only [first_ident, true_and]; rfl) hn (he _) (.inr ⟨b, t, r, rfl, hs⟩)
    cases l with
    | nil => exact ⟨[⟨0, (0, n), 0, e⟩], rfl, fun b t tail hs ht => .lastSep (hitem b t tail hs) hs ht⟩
    | cons d' l =>
      obtain ⟨items, h1, h2⟩ := ih (by simp) (fun d hd => hcalls d (by simp [hd]))
      refine ⟨⟨0, (0, n), 0, e⟩ :: items, by simp [h1], fun b t tail hs ht => ?_⟩
      have hk : d'.1 ∉ keywords := (hcalls d' (by simp)).1
      exact .cons (n := d'.1) (hitem b t _ hs) hs (by simp only [defsToks, first_ident, true_and]; rfl) hk (h2 b t tail hs ht)

/-- **C49** (partial: the values are calls of functions, see `C49_false`): with `;` instead of `,` after each definition the same loops, definitions and
block are parsed. -/
theorem C49_calls_partial {pre : Toks} {ls : Option PLoops} (hl : ReadsOptLoops Y known pre ls []) {l : List (Str × Toks)} (hne : l ≠ [])
    (hcalls : ∀ d ∈ l, d.1 ∉ keywords ∧ ∃ f raw, CallAt known d.2 f raw []) {b : Toks} {block : List Stmt} (hbl : Y.parseBlock b = some block)
    (k : Nat) (sv : Service) (hb : 1 ≤ sv.borrowed) (j j' : Bool) :
    ∃ a a' s s', (parseRawAst Y known ids (pre ++ defsToks (.punct ',' j) l [.group .brace b]) k (some sv)).1 = .ok a ∧
      (parseRawAst Y known ids (pre ++ defsToks (.punct ';' j') l [.group .brace b]) k (some sv)).1 = .ok a' ∧
      (astErase a).1.1 = (astErase a').1.1 ∧ (astErase a).2 = (astErase a').2 ∧ a.spec = some s ∧ a'.spec = some s' ∧
      s.items.map itemErase = s'.items.map itemErase ∧ s.items.map (·.alias.2) = l.map (·.1) := by
  obtain ⟨items, h1, h2⟩ := defs_items Y known hne hcalls
  have hr : ∀ (c : Bool) (t : Tok), IsSep c t → ReadsInput known Y (pre ++ defsToks t l [.group .brace b])
      ⟨0, ls, some ⟨0, items, (List.replicate l.length c).head?⟩, block⟩ := by
    intro c t hs
    have hi := h2 c t [.group .brace b] hs (by simp)
    refine .mk 0 (.mk ?_ (.inr ⟨_, rfl, readsItems_head hi, .mk 0 hi ?_⟩)) (.here (by simp)) hbl (.inl rfl)
    · refine optLoops_ctx (τ := []) (r := []) ?_ (by simpa using hl)
      obtain ⟨n, r, h3, h4⟩ := readsItems_head hi
      intro r2 e2
      rw [show defsToks t l [.group .brace b] = .ident (S "for") :: r2 from e2] at h3
      simp at h3
      rw [← h3.1] at h4
      exact h4 for_keyword
    · intro b hb c hc
      rw [(List.mem_replicate.mp hb).2, (List.mem_replicate.mp hc).2]
  obtain ⟨a, h3, h4⟩ := (C58_function_like Y known ids _ k sv hb).2 _ (hr true (.punct ',' j) (.comma j))
  obtain ⟨a', h5, h6⟩ := (C58_function_like Y known ids _ k sv hb).2 _ (hr false (.punct ';' j') (.semi j'))
  simp only [astErase, headerErase, Prod.mk.injEq, Option.map_some] at h4 h6
  obtain ⟨⟨h4, h7⟩, h8⟩ := h4
  obtain ⟨⟨h6, h9⟩, h10⟩ := h6
  rw [Option.map_eq_some_iff] at h7 h9
  obtain ⟨s, hs, h7⟩ := h7
  obtain ⟨s', hs', h9⟩ := h9
  simp only [specErase, Prod.mk.injEq] at h7 h9
  refine ⟨a, a', s, s', h3, h5, ?_, ?_, hs, hs', by rw [h7.1, h9.1], ?_⟩
  · simp [astErase, headerErase, h4, h6]
  · simp [astErase, h8, h10]
  · rw [← h1]
    have := congrArg (List.map (·.1)) h7.1
    simpa [itemErase, Function.comp_def] using this

/-- The claim **C49** is false for other values: `a = x, b = y, { }` is accepted, but `a = x; b = y; { }` is not. -/
theorem C49_false : ∃ l : List (Str × Toks), (∃ a, (parseRawAst Syn.demo demoKnown (fun k => k) (defsToks comma l [brace []]) 0 (some demoService)).1 = .ok a) ∧
    (parseRawAst Syn.demo demoKnown (fun k => k) (defsToks semi l [brace []]) 0 (some demoService)).1 = .err .parse :=
  ⟨[(S "a", [id' "x"]), (S "b", [id' "y"])], ⟨_, rfl⟩, rfl⟩

example : ∀ d ∈ [(S "a", [id' "lower", paren [id' "X"]]), (S "b", [id' "upper", paren [id' "a"]])],
    d.1 ∉ keywords ∧ ∃ f raw, CallAt demoKnown d.2 f raw [] := by
  intro d hd
  simp at hd
  rcases hd with rfl | rfl
  · exact ⟨by decide, S "lower", _, .of _ _ (by decide) (by decide)⟩
  · exact ⟨by decide, S "upper", _, .of _ _ (by decide) (by decide)⟩

end Verif.Props
