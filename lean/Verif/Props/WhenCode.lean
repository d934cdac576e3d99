import Verif.Props.Text
/-!
# Exactly when an invocation gives code (C88)

C59 says what the code is, C65 what an error says. Here is the condition which separates the two.
-/

namespace Verif.Props
open Spec

variable {E : Ext} {subs : Subs} {valid : Toks → Bool}

/-- The code is of its kind after each single replacement, made from left to right (and as it is written, if there is nothing to replace). -/
def StaysValid (valid : Toks → Bool) (look : Str → Option Toks) (str : Str → Lit) (node : Toks) : Prop :=
  ∀ k, k ≤ (occAll look node).length → (k = 0 → occAll look node = []) → valid (substFirst look str k node) = true

/-- **C88** for a piece of code (C16 without the assumption that the piece is well formed to begin with). -/
theorem C88_piece {fmt : Str → Str} (hf : FormatsAll E subs fmt) (node : Toks) :
    (∃ out, substituteIdents E valid subs node = .ok out) ↔ StaysValid valid (valueToks subs) (litWith E fmt) node := by
  have hl : valueToks subs = lookToks subs := by funext n; simp [valueToks, codeOf_eq, lookToks, get_eq_lookup]
  rw [litWith_eq hf, hl]
  unfold substituteIdents StaysValid
  rw [walk_eq]
  rcases goList_checked (E := E) (valid := valid) (subs := subs) node id [] none with ⟨h1, h2⟩ | ⟨k, h1, h2, h3, h4, h5⟩
  · simp only [id_eq, List.nil_append] at h1
    rw [h2]
    simp only [Res.map, Res.bind_eq, Res.bind_ok]
    rw [← substFirst_all _ _ node _ (Nat.le_refl _)]
    constructor
    · rintro ⟨out, h⟩ k hk h0
      by_cases hk0 : k = 0
      · subst hk0
        have h0 := h0 rfl
        rw [h0] at h
        split at h
        · assumption
        · cases h
      · exact h1 k (by omega) hk
    · intro h
      have := h _ (Nat.le_refl _) (fun e => List.eq_nil_of_length_eq_zero e)
      rw [if_pos this]
      exact ⟨_, rfl⟩
  · simp only [id_eq, List.nil_append] at h3
    rw [h5]
    constructor
    · rintro ⟨out, h⟩
      simp only [failRes] at h
      split at h <;> cases h
    · intro h
      have := h k h2 (by omega)
      rw [h3] at this
      cases this

variable {W : World} {hist : List (Invocation × Luck)} {inv : Invocation} {l : Luck}

/-- **C88**: an invocation gives code if and only if it can be read, its loops can be unrolled, and in each iteration the definitions have values with
which every piece of the code stays well formed, replacement by replacement. (Blocks of statements are such when the code is parsed; see C17.) -/
theorem C88_gives_code (hs : Scheduled W hist inv l) (hb : ∀ a, Reads W inv a → StatementsParse W.Y.toGrammar a.block) :
    (∃ ts, output W hist inv l = .tokens ts) ↔
    ∃ a its, Reads W inv a ∧ InForce a its ∧ ∀ defs ∈ its, ∃ vs fmt, outcome W.E (Env.builtin (l.ids 0)) defs = .ok vs ∧ FormatsAll W.E vs fmt ∧
      ∀ p ∈ stmtsParts a.block, StaysValid (validPart W.Y.toGrammar p.1) (valueToks vs) (litWith W.E fmt) p.2 := by
  constructor
  · intro h
    obtain ⟨ts, ht⟩ := h
    obtain ⟨a, its, -, ha, hi, -⟩ := C43_in_order hs ht
    refine ⟨a, its, ha, hi, fun defs hd => ?_⟩
    obtain ⟨c, hc⟩ := (C54_all_or_nothing hs ha (iterations_of_inForce hi)).1 ⟨ts, ht⟩ defs hd
    cases hc with
    | mk vs h stmts hv =>
      obtain ⟨fmt, hf⟩ := formatting_exists W.E vs
      refine ⟨vs, fmt, h, hf, fun p hp => (C88_piece hf p.2).1 ?_⟩
      exact (C17_succeeds (hb a ha)).1 ⟨stmts, hv⟩ p hp
  · rintro ⟨a, its, ha, hi, h⟩
    refine (C54_all_or_nothing hs ha (iterations_of_inForce hi)).2 fun defs hd => ?_
    obtain ⟨vs, fmt, h1, hf, h2⟩ := h defs hd
    obtain ⟨b', h3⟩ := (C17_succeeds (E := W.E) (subs := vs) (hb a ha)).2 fun p hp => (C88_piece hf p.2).2 (h2 p hp)
    exact ⟨_, .mk vs h1 b' h3⟩

/-! ## Names -/

/-- The same tokens, apart from the names that are not special and from the contents of string literals. -/
inductive SameShape (special : Str → Prop) : Toks → Toks → Prop
  | nil : SameShape special [] []
  | same {ts us : Toks} (t : Tok) (h : SameShape special ts us) : SameShape special (t :: ts) (t :: us)
  | name {a b : Str} {ts us : Toks} (ha : ¬ special a) (hb : ¬ special b) (h : SameShape special ts us) :
      SameShape special (.ident a :: ts) (.ident b :: us)
  | str {ts us : Toks} (r v r' v' : Str) (h : SameShape special ts us) : SameShape special (.lit (.str r v) :: ts) (.lit (.str r' v') :: us)
  | group {vs ws ts us : Toks} (d : Delim) (hin : SameShape special vs ws) (h : SameShape special ts us) :
      SameShape special (.group d vs :: ts) (.group d ws :: us)

/-- Names that are not special, and contents of string literals, are all the same to a grammar. -/
def NameBlind (special : Str → Prop) (valid : Toks → Bool) : Prop := ∀ a b, SameShape special a b → valid a = valid b

theorem SameShape.refl {special : Str → Prop} : ∀ ts : Toks, SameShape special ts ts
  | [] => .nil
  | t :: ts => .same t (SameShape.refl ts)

theorem SameShape.append {special : Str → Prop} {a b c d : Toks} (h : SameShape special a b) (h' : SameShape special c d) :
    SameShape special (a ++ c) (b ++ d) := by
  induction h with
  | nil => exact h'
  | same t _ ih => exact .same t ih
  | name ha hb _ ih => exact .name ha hb ih
  | str r v r' v' _ ih => exact .str r v r' v' ih
  | group d hin _ _ ih => exact .group d hin ih

section
variable {special : Str → Prop} {look : Str → Option Toks} {str : Str → Lit}
  (hl : ∀ n ts, look n = some ts → ¬ special n ∧ ∃ m, ts = [.ident m] ∧ ¬ special m) (hstr : ∀ v, ∃ r w, str v = .str r w)
include hl hstr

mutual
theorem sameShape_substFirstTok (k : Nat) (t : Tok) : SameShape special [t] (substFirstTok look str k t) := by
  match t with
  | .ident n =>
    simp only [substFirstTok]
    by_cases hk : k = 0
    · rw [if_pos hk]; exact .refl _
    · rw [if_neg hk]
      cases h : look n with
      | none => exact .refl _
      | some ts =>
        obtain ⟨h1, m, rfl, h2⟩ := hl n ts h
        exact .name h1 h2 .nil
  | .lit (.str r v) =>
    simp only [substFirstTok]
    by_cases hk : k = 0
    · rw [if_pos hk]; exact .refl _
    · rw [if_neg hk]
      obtain ⟨r', w, h⟩ := hstr v
      rw [h]
      exact .str _ _ _ _ .nil
  | .lit (.int _ _) | .lit (.other _) => simp only [substFirstTok]; exact .refl _
  | .group d ts => simp only [substFirstTok]; exact .group d (sameShape_substFirst k ts) .nil
  | .punct _ _ => simp only [substFirstTok]; exact .refl _
theorem sameShape_substFirst (k : Nat) (ts : Toks) : SameShape special ts (substFirst look str k ts) := by
  match ts with
  | [] => exact .nil
  | t :: ts => simp only [substFirst]; exact (sameShape_substFirstTok k t).append (sameShape_substFirst _ ts)
end
end

theorem nameBlind_attrs {special : Str → Prop} {ok : Toks → Bool} (hm : NameBlind special ok) :
    NameBlind special (fun ts => (Attr.parseOuter ok ts).isSome) := by
  suffices ∀ a b, SameShape special a b → (Attr.parseOuter ok a).isSome = (Attr.parseOuter ok b).isSome from fun a b h => this a b h
  intro a
  fun_induction Attr.parseOuter ok a with
  | case1 => intro b h; cases h; rfl
  | case2 j body ts hok ih =>
    intro b h
    cases h with
    | same t h =>
      cases h with
      | same t h => simpa [Attr.parseOuter, hok] using ih _ h
      | group d hin h =>
        have := hm _ _ hin
        rw [hok] at this
        simpa [Attr.parseOuter, hok, ← this] using ih _ h
  | case3 j body ts hok =>
    intro b h
    cases h with
    | same t h =>
      cases h with
      | same t h => simp [Attr.parseOuter, hok]
      | group d hin h =>
        have := hm _ _ hin
        simp [Attr.parseOuter, ← this, hok]
  | case4 ts h1 h2 =>
    intro b h
    have : Attr.parseOuter ok b = none := by
      unfold Attr.parseOuter
      split
      · cases h; exact absurd rfl h1
      · rename_i j body us
        exfalso
        cases h with
        | same t h =>
          cases h with
          | same t h => exact h2 _ _ _ rfl
          | group d hin h => exact h2 _ _ _ rfl
      · rfl
    rw [this]

/-- A grammar to which names that are not special are all the same. -/
structure BlindGrammar (special : Str → Prop) (G : Grammar) : Prop where
  /-- for the nodes -/
  node : ∀ k, NameBlind special (G.valid k)
  /-- for what is in the brackets of an attribute -/
  metas : NameBlind special G.validMeta
  /-- for blocks -/
  block : NameBlind special G.validBlock

theorem BlindGrammar.part {special : Str → Prop} {G : Grammar} (h : BlindGrammar special G) (k : PartKind) : NameBlind special (validPart G k) := by
  cases k with
  | node k => exact h.node k
  | attrs => exact nameBlind_attrs h.metas
  | block => exact h.block

theorem mem_of_lookup_some {α : Type} {n : Str} {v : α} : ∀ {l : List (Str × α)}, List.lookup n l = some v → (n, v) ∈ l
  | (m, w) :: l, h => by
    simp only [List.lookup_cons] at h
    split at h
    · rename_i hm
      cases h
      simp_all
    · exact .tail _ (mem_of_lookup_some h)

/-- **C88**, names for names: if all the aliases stand for identifiers, and neither the aliases nor these identifiers are special, then well-formed code
cannot be spoiled by the replacement: there is code as soon as the definitions have values. -/
theorem C88_names {special : Str → Prop} (hG : BlindGrammar special W.Y.toGrammar) (hs : Scheduled W hist inv l) {a : PAst} (ha : Reads W inv a)
    (hv : ∀ p ∈ stmtsParts a.block, validPart W.Y.toGrammar p.1 p.2 = true) {its : List (List (Str × Expr))} (hi : InForce a its)
    (hd : ∀ defs ∈ its, ∃ vs, outcome W.E (Env.builtin (l.ids 0)) defs = .ok vs ∧ ∀ n v, (n, v) ∈ vs → ¬ special n ∧ ∃ m, v = .ident m ∧ ¬ special m) :
    ∃ ts, output W hist inv l = .tokens ts := by
  refine (C54_all_or_nothing hs ha (iterations_of_inForce hi)).2 fun defs hm => ?_
  obtain ⟨vs, h1, h2⟩ := hd defs hm
  obtain ⟨fmt, hf⟩ := formatting_exists W.E vs
  have hb : StatementsParse W.Y.toGrammar a.block := fun ts h => hv (.block, ts) h
  obtain ⟨b', h3⟩ := (C17_succeeds (E := W.E) (subs := vs) hb).2 fun p hp => (C88_piece hf p.2).2 fun k _ _ => by
    have h := hG.part p.1 _ _ (sameShape_substFirst (special := special) (look := valueToks vs) (str := litWith W.E fmt) (fun n ts h => by
      simp only [valueToks, codeOf_eq, Option.map_eq_some_iff] at h
      obtain ⟨v, hl, rfl⟩ := h
      obtain ⟨h4, m, rfl, h5⟩ := h2 n v (mem_of_lookup_some hl)
      exact ⟨h4, m, rfl, h5⟩) (fun v => ⟨_, _, rfl⟩) k p.2)
    rw [← h]
    exact hv p hp
  exact ⟨_, .mk vs h1 b' h3⟩

/-! ## Examples -/

theorem demo_blindGrammar : BlindGrammar (· ∈ keywords) demoWorld.Y.toGrammar where
  node _ _ _ _ := rfl
  metas _ _ _ := rfl
  block := by
    have key : ∀ ts, demoWorld.Y.toGrammar.validBlock ts = match ts with | [.group .brace _] => true | _ => false := by
      intro ts
      unfold Grammar.validBlock
      split
      · rfl
      · next h =>
        split
        · exact absurd rfl (h _)
        · rfl
    intro a b h
    rw [key, key]
    cases h with
    | nil => rfl
    | same t h => cases h <;> first | rfl | (cases t <;> first | rfl | (rename_i d _; cases d <;> rfl))
    | name _ _ h => cases h <;> rfl
    | str _ _ _ _ h => cases h <;> rfl
    | group d _ h => cases h <;> cases d <;> rfl

/-- The definitions have values, which are names, as are the aliases. -/
def allNames (defs : List (Str × Expr)) : Bool :=
  match outcome demoWorld.E (Env.builtin ((demoLuck 2 1).ids 0)) defs with
  | .ok vs => vs.all fun x => !keywords.contains x.1 && match x.2 with | .ident m => !keywords.contains m | _ => false
  | _ => false

theorem allNames_spec {defs : List (Str × Expr)} (h : allNames defs = true) :
    ∃ vs, outcome demoWorld.E (Env.builtin ((demoLuck 2 1).ids 0)) defs = .ok vs ∧
      ∀ n v, (n, v) ∈ vs → ¬ n ∈ keywords ∧ ∃ m, v = .ident m ∧ ¬ m ∈ keywords := by
  unfold allNames at h
  split at h
  · rename_i vs hvs
    refine ⟨vs, hvs, fun n v hm => ?_⟩
    have := List.all_eq_true.1 h _ hm
    cases v <;> simp_all
  · cases h

/-- `for x in [a, b] y = concat(x, 1), { struct y {} }` gives code, since the names `x` and `y` stand for names in both iterations. -/
example : ∃ ts, output demoWorld [] (.compose demoLoop) (demoLuck 2 1) = .tokens ts := by
  refine C88_names demo_blindGrammar (demo_scheduled _ _ (by decide +kernel)) (reads_of_parse (ids := fun k => k) (k := 0) rfl) ?_
    (inForce_of_iterations rfl) ?_
  · decide +kernel
  · suffices ∀ defs ∈ _, allNames defs = true from fun defs hd => allNames_spec (this defs hd)
    decide +kernel

/-- The hypotheses of `C88_gives_code` hold for `for x in [a, 1] { struct x {} }`, with a grammar in which a literal is no name; there is no code, since
the name of the struct does not stay a name in the second iteration. -/
example : Scheduled demoStrict [] (.compose demoFail) (demoLuck 2 1) ∧ (∀ a, Reads demoStrict (.compose demoFail) a → StatementsParse demoStrict.Y.toGrammar a.block) ∧
    ¬ StaysValid (validPart demoStrict.Y.toGrammar (.node .ident)) (valueToks [(S "x", .litInt ⟨false, S "1", 1⟩)]) (litWith demoStrict.E id) [id' "x"] := by
  refine ⟨⟨fun _ l => .refl l, Nat, inferInstance, _, 1, rfl, by decide +kernel, by decide +kernel⟩, ?_, fun h => ?_⟩
  · intro a ha
    have hb := congrArg (·.2) (reads_unique ha (reads_of_parse (W := demoStrict) (inv := .compose demoFail) (ids := fun k => k) (k := 0) rfl))
    have hb : a.block = _ := hb
    rw [hb]
    have key : ∀ b : List Stmt, (∀ p ∈ stmtsParts b, p.1 = .block → demoStrict.Y.toGrammar.validBlock p.2 = true) → StatementsParse demoStrict.Y.toGrammar b :=
      fun b h ts hm => h _ hm rfl
    exact key _ (by decide +kernel)
  · have := h 1 (by decide +kernel) (by simp)
    revert this
    decide +kernel

end Verif.Props
