import Verif.Model.TypeName
import Verif.Model.Demo
import Verif.Props.Run
/-!
# Properties C71, C72: names of aliases, names of types
-/

namespace Verif.Props
open Verif Spec

/-- The keywords of Rust, from the reference: strict ones, those of the editions since 2018, and reserved ones. (Not `gen`, reserved in
edition 2024, nor weak keywords like `union`.) -/
def rustKeywords : List String :=
  ["as", "break", "const", "continue", "crate", "else", "enum", "extern", "false", "fn", "for", "if", "impl", "in", "let", "loop", "match",
   "mod", "move", "mut", "pub", "ref", "return", "self", "Self", "static", "struct", "super", "trait", "true", "type", "unsafe", "use",
   "where", "while", "async", "await", "dyn", "abstract", "become", "box", "do", "final", "macro", "override", "priv", "typeof", "unsized",
   "virtual", "yield", "try"]

/-- A keyword or the underscore. -/
def NotAName (n : Str) : Prop := n = ['_'] ∨ ∃ k ∈ rustKeywords, n = k.toList

theorem notAName_iff (n : Str) : n ∈ keywords ↔ NotAName n := by
  have h1 : ∀ n ∈ keywords, n ∈ ['_'] :: rustKeywords.map String.toList := by decide +kernel
  have h2 : ∀ n ∈ ['_'] :: rustKeywords.map String.toList, n ∈ keywords := by decide +kernel
  have h3 : NotAName n ↔ n ∈ ['_'] :: rustKeywords.map String.toList := by
    simp only [NotAName, List.mem_cons, List.mem_map]
    constructor
    · rintro (h | ⟨k, hk, rfl⟩)
      · exact .inl h
      · exact .inr ⟨k, hk, rfl⟩
    · rintro (h | ⟨k, hk, rfl⟩)
      · exact .inl h
      · exact .inr ⟨k, hk, rfl⟩
  rw [h3]
  exact ⟨h1 n, h2 n⟩

/-- The alias `n` occurs in the element of a tuple of aliases. -/
inductive InTup (n : Str) : PTup Alias → Prop
  | val (id aid : Nat) : InTup n (.val id (aid, n))
  | tup (id tid : Nat) {t : PTup Alias} {ts : List (PTup Alias)} (ht : t ∈ ts) (h : InTup n t) : InTup n (.tup id tid ts)

/-- `n` is the alias of a loop, or one of them. -/
inductive InLoopAlias (n : Str) : PLoopElem Alias → Prop
  | simple (aid : Nat) : InLoopAlias n (.simple (aid, n))
  | tuple (id : Nat) {t : PTup Alias} {ts : List (PTup Alias)} (ht : t ∈ ts) (h : InTup n t) : InLoopAlias n (.tuple id ts)

/-- `n` is defined in the invocation: by a loop or by a definition. -/
inductive DefinedIn (n : Str) (a : PAst) : Prop
  | loop {ls : PLoops} {l : PLoop} (hs : a.loops = some ls) (hl : l ∈ ls.loops) (h : InLoopAlias n l.alias)
  | item {s : PSpec} {i : PItem} (hs : a.spec = some s) (hi : i ∈ s.items) (h : i.alias.2 = n)

theorem inTup_name {n : Str} {t : PTup Alias} (hn : InTup n t) : ∀ {ts rest : Toks}, ReadsTup ReadsAlias ts t rest → n ∉ keywords := by
  induction hn with
  | val id aid =>
    intro ts rest h
    cases h with
    | val _ _ h => cases h with | mk _ _ hn => exact hn
  | @tup id tid t ts ht _ ih =>
    intro x rest h
    cases h with
    | tup _ _ _ h =>
      have key : ∀ {c : Toks} {as : List (PTup Alias)}, CommaList (ReadsTup ReadsAlias) c as → t ∈ as → n ∉ keywords := by
        intro c as h ht
        induction h with
        | nil => cases ht
        | last _ h => simp at ht; subst ht; exact ih h
        | cons _ h _ ih2 =>
          rcases List.mem_cons.1 ht with rfl | ht
          · exact ih h
          · exact ih2 ht
      exact key h ht

theorem inTups_name {n : Str} {t : PTup Alias} {ts : Toks} {as : List (PTup Alias)} (h : CommaList (ReadsTup ReadsAlias) ts as) (ht : t ∈ as)
    (hn : InTup n t) : n ∉ keywords := by
  induction h with
  | nil => cases ht
  | last _ h => simp at ht; subst ht; exact inTup_name hn h
  | cons _ h _ ih2 =>
    rcases List.mem_cons.1 ht with rfl | ht
    · exact inTup_name hn h
    · exact ih2 ht

theorem inLoopAlias_name {n : Str} {e : PLoopElem Alias} {ts rest : Toks} (hn : InLoopAlias n e) (h : ReadsElem ReadsAlias ts e rest) :
    n ∉ keywords := by
  cases hn with
  | simple => cases h with | simple _ h => cases h with | mk _ _ h => exact h
  | tuple _ ht hn => cases h with | tuple _ _ h => exact inTups_name h ht hn

theorem loops_name {known : Str → Bool} {Y : Syn} {n : Str} {ts rest : Toks} {ls : List PLoop} (h : ReadsLoops known Y ts ls rest) {l : PLoop}
    (hl : l ∈ ls) (hn : InLoopAlias n l.alias) : n ∉ keywords := by
  induction h with
  | nil => cases hl
  | cons h _ ih =>
    rcases List.mem_cons.1 hl with rfl | hl
    · cases h with | mk _ _ ha _ _ => exact inLoopAlias_name hn ha
    · exact ih hl

theorem items_name {known : Str → Bool} {Y : Syn} {ts rest : Toks} {is : List PItem} {bs : List Bool} (h : ReadsItems known Y ts is bs rest)
    {i : PItem} (hi : i ∈ is) : i.alias.2 ∉ keywords := by
  have one : ∀ {ts rest : Toks} {i : PItem}, ReadsItem known Y ts i rest → i.alias.2 ∉ keywords := by
    intro ts rest i h
    cases h with | mk _ _ _ _ hn _ _ => exact hn
  induction h with
  | last h => simp at hi; subst hi; exact one h
  | lastSep h _ _ => simp at hi; subst hi; exact one h
  | cons h _ _ _ _ ih =>
    rcases List.mem_cons.1 hi with rfl | hi
    · exact one h
    · exact ih hi

theorem header_name {known : Str → Bool} {Y : Syn} {ts rest : Toks} {a : PAst} (h : ReadsHeader known Y ts (a.loops, a.spec) rest) {n : Str}
    (hn : DefinedIn n a) : n ∉ keywords := by
  generalize hp : (a.loops, a.spec) = p at h
  cases h with
  | mk hl hs =>
    simp only [Prod.mk.injEq] at hp
    obtain ⟨rfl, rfl⟩ := hp
    cases hn with
    | loop e hm h =>
      rcases hl with ⟨e', -⟩ | ⟨id, l, e', -, hl⟩
      · simp [e'] at e
      · rw [e] at e'; cases e'; exact loops_name hl hm h
    | item e hm h =>
      rcases hs with ⟨e', -⟩ | ⟨s', e', -, hs⟩
      · simp [e'] at e
      · rw [e] at e'; cases e'
        cases hs with
        | mk _ hi _ => exact h ▸ items_name hi hm

/-- **C71**: no alias of an accepted invocation, defined or looped over, at any depth of a tuple, is a keyword or `_`. -/
theorem C71_never {W : World} {inv : Invocation} {a : PAst} (h : Reads W inv a) {n : Str} (hn : DefinedIn n a) : ¬ NotAName n := by
  rw [← notAName_iff]
  have key : ∀ ts, ReadsInput isBuiltin W.Y ts a → n ∉ keywords := by
    intro ts h
    cases h with | mk _ h' _ _ _ => exact header_name h' hn
  cases inv with
  | compose ts => exact key _ h
  | composeIdents ts => exact key _ h
  | composeItem attr item =>
    have h' := h.1
    generalize hb : { a with block := [] } = b at h'
    cases h' with
    | mk id h _ =>
      cases hb
      exact header_name h hn

/-- **C71**: any other name can be defined: whether a definition (with all that follows it) is accepted does not depend on the name, as long as
it is not a keyword or `_`. -/
theorem C71_others {W : World} (n : Str) (j : Bool) (ts : Toks) :
    (∃ a, Reads W (.compose (.ident n :: .punct '=' j :: ts)) a) ↔
      ¬ NotAName n ∧ ∃ a, Reads W (.compose (.ident (S "x") :: .punct '=' j :: ts)) a := by
  have item : ∀ {m n : Str} {i : PItem} {rest : Toks}, n ∉ keywords → ReadsItem isBuiltin W.Y (.ident m :: .punct '=' j :: ts) i rest →
      ∃ i', ReadsItem isBuiltin W.Y (.ident n :: .punct '=' j :: ts) i' rest := by
    intro m n i rest hn h
    cases h with
    | mk id aid vid ha _ h he =>
      simp at ha
      obtain ⟨rfl, rfl, rfl⟩ := ha
      exact ⟨_, .mk 0 0 0 (first_ident.2 ⟨rfl, rfl⟩) hn h he⟩
  have items : ∀ {m n : Str} {is : List PItem} {bs : List Bool} {rest : Toks}, n ∉ keywords →
      ReadsItems isBuiltin W.Y (.ident m :: .punct '=' j :: ts) is bs rest →
      ∃ is', ReadsItems isBuiltin W.Y (.ident n :: .punct '=' j :: ts) is' bs rest := by
    intro m n is bs rest hn hi
    cases hi with
    | last h => obtain ⟨i', h'⟩ := item hn h; exact ⟨_, .last h'⟩
    | lastSep h hs hx => obtain ⟨i', h'⟩ := item hn h; exact ⟨_, .lastSep h' hs hx⟩
    | cons h hs hm hx hr => obtain ⟨i', h'⟩ := item hn h; exact ⟨_, .cons h' hs hm hx hr⟩
  have main : ∀ {m n : Str}, n ∉ keywords → (∃ a, Reads W (.compose (.ident m :: .punct '=' j :: ts)) a) →
      ∃ a, Reads W (.compose (.ident n :: .punct '=' j :: ts)) a := by
    rintro m n hn ⟨a, h⟩
    cases h with
    | mk id h hm hb ht =>
      cases h with
      | mk hl hs =>
        rcases hl with ⟨rfl, rfl, -⟩ | ⟨_, l, rfl, hne, hl⟩
        · rcases hs with ⟨rfl, rfl, -⟩ | ⟨s, rfl, -, hs⟩
          · simp at hm
          · cases hs with
            | mk sid hi hbs =>
              obtain ⟨is', hi'⟩ := items hn hi
              have hf : n ≠ S "for" := by
                rintro rfl
                exact hn (by decide +kernel)
              refine ⟨_, .mk 0 (.mk (.inl ⟨rfl, rfl, ?_⟩) (.inr ⟨_, rfl, ⟨n, _, first_ident.2 ⟨rfl, rfl⟩, hn⟩, .mk 0 hi' hbs⟩)) hm hb ?_⟩
              · intro r h; simp at h; exact hf h.1
              · rcases ht with ht | ⟨c, t, h1, h2, h3⟩
                · exact .inl ht
                · exact .inr ⟨c, t, h1, h2, by intro s' e; cases e; exact (h3 _ rfl :)⟩
        · cases hl with
          | nil => exact (hne rfl).elim
          | cons h _ =>
            cases h with
            | mk _ _ ha _ _ =>
              cases ha with
              | tuple _ hp _ => simp at hp
              | simple _ h => cases h with | mk _ h _ => simp at h
  have hx : S "x" ∉ keywords := by decide +kernel
  constructor
  · rintro ⟨a, h⟩
    refine ⟨?_, main hx ⟨a, h⟩⟩
    cases h with
    | mk id h hm hb ht =>
      rw [← notAName_iff]
      cases h with
      | mk hl hs =>
        rcases hl with ⟨rfl, rfl, -⟩ | ⟨_, l, rfl, hne, hl⟩
        · rcases hs with ⟨rfl, rfl, -⟩ | ⟨s, rfl, ⟨m, r, hf, hm'⟩, hs⟩
          · simp at hm
          · simp at hf
            exact hf.1 ▸ hm'
        · cases hl with
          | nil => exact (hne rfl).elim
          | cons h _ =>
            cases h with
            | mk _ _ ha _ _ =>
              cases ha with
              | tuple _ hp _ => simp at hp
              | simple _ h => cases h with | mk _ h _ => simp at h
  · rintro ⟨hn, h⟩
    rw [← notAName_iff] at hn
    exact main hn h

/-- **C71**: defining a keyword or `_` gives a compile error, whatever follows. -/
theorem C71_refused {W : World} {hist : List (Invocation × Luck)} {n : Str} {j : Bool} {ts : Toks} {l : Luck}
    (hs : Scheduled W hist (.compose (.ident n :: .punct '=' j :: ts)) l) (hn : NotAName n) :
    output W hist (.compose (.ident n :: .punct '=' j :: ts)) l = .compileError .parse :=
  output_unread hs fun a h => ((C71_others n j ts).1 ⟨a, h⟩).1 hn

example : ∃ a, Reads demoWorld (.compose demoLoop) a ∧ DefinedIn (S "x") a ∧ DefinedIn (S "y") a :=
  ⟨_, reads_of_parse (ids := fun k => k) (k := 0) rfl, .loop rfl List.mem_cons_self (.simple _), .item rfl List.mem_cons_self rfl⟩
example : ∃ a, Reads demoWorld (.compose (.ident (S "gen") :: .punct '=' false :: demoSemi.drop 2)) a :=
  ⟨_, reads_of_parse (ids := fun k => k) (k := 0) rfl⟩
example : Scheduled demoWorld [] (.compose (.ident (S "dyn") :: .punct '=' false :: demoSemi.drop 2)) (demoLuck 2 1) :=
  demo_scheduled _ _ (by decide +kernel)
example : ¬ NotAName (S "gen") ∧ NotAName (S "dyn") := by
  rw [← notAName_iff, ← notAName_iff]
  decide +kernel

/-! ## Names of types -/

/-- The tokens of the name of a type as it is printed in signatures: `ident`, `str...`, … -/
inductive NameOf : Toks → Ty → Prop
  | base {t : Ty} (h : ∀ u, t ≠ .variadic u) : NameOf [.ident t.show] t
  | variadic {ts : Toks} {t : Ty} (h : NameOf ts t) : NameOf (ts ++ [.punct '.' true, .punct '.' true, .punct '.' false]) (.variadic t)

/-- The types whose name can be read back. -/
inductive Readable : Ty → Prop
  | ident : Readable .ident
  | path : Readable .path
  | str : Readable .litStr
  | int : Readable .litInt
  | tokens : Readable .tokens

/-- **C72** (partial: for these five types only, see `C72_false`): the name of a type, as printed in signatures, is read as this type. -/
theorem C72_partial {ts : Toks} {t : Ty} (hn : NameOf ts t) (h : Readable t) (k : Nat) : parseTy ts k = (.ok (t, []), k) := by
  cases h <;> cases hn <;> rfl

theorem parseTy_ok {ts rest : Toks} {t : Ty} {k k' : Nat} (h : parseTy ts k = (.ok (t, rest), k')) :
    ∃ n, opened ts = .ident n :: rest ∧ n ∉ keywords ∧ Readable t ∧ n = t.show ∧ k' = k := by
  simp only [parseTy, bind, P.bind, parseIdentTok] at h
  split at h
  · rename_i x n ts' k1 e
    split at e
    · rename_i m ts'' ho
      split at e
      · simp at e
      · rename_i hk
        simp at e
        obtain ⟨⟨rfl, rfl⟩, rfl⟩ := e
        refine ⟨m, ?_⟩
        have hk' : m ∉ keywords := by simpa using hk
        repeat' split at h
        all_goals simp [pure, P.fail] at h
        all_goals (obtain ⟨⟨rfl, rfl⟩, rfl⟩ := h)
        all_goals subst_vars
        all_goals first
          | exact ⟨ho, hk', by constructor, rfl, rfl⟩
          | exact (hk' (by decide +kernel)).elim
    · simp at e
  · simp at h
  · simp at h

/-- **C72** (the other direction): what is read as a type is its name, one identifier. -/
theorem C72_exact {ts rest : Toks} {t : Ty} {k k' : Nat} (h : parseTy ts k = (.ok (t, rest), k')) :
    ∃ name, NameOf [name] t ∧ First ts name rest ∧ Readable t := by
  obtain ⟨n, ho, -, hr, rfl, -⟩ := parseTy_ok h
  exact ⟨_, .base (by cases hr <;> simp), first_iff.2 ho, hr⟩

/-- **C72** is false for `type` (a keyword), `expr` and `raw` (not known), and all variadic types. -/
theorem C72_false {ts : Toks} {t : Ty} (h : ¬ Readable t) (k k' : Nat) : parseTy ts k ≠ (.ok (t, []), k') := by
  intro e
  obtain ⟨n, -, -, hr, -⟩ := parseTy_ok e
  exact h hr

example : NameOf [.ident (S "str")] .litStr ∧ Readable .litStr := ⟨.base (t := .litStr) (by simp), .str⟩
example : NameOf [.ident (S "type")] .type ∧ ¬ Readable .type := ⟨.base (t := .type) (by simp), by intro h; cases h⟩

end Verif.Props
