import Verif.Proofs.SpanReads
import Verif.Props.Spans
import Verif.Props.Run
/-!
# Property C85, continued: whole inputs

The source of spans that `Props/Spans` assumes comes from the tokens of the invocation.
-/

namespace Verif.Props
open Verif Spec

variable {σ : Type} {W : World} {P : SpanOps σ} {src : Source σ} {inv : Invocation} {a : PAst} {inp : SToks σ}

/-- The tokens the loops and definitions are read from. -/
def writtenIn : Invocation → Toks
  | .compose ts => ts
  | .composeIdents ts => ts
  | .composeItem attr _ => attr

theorem header_of_reads (h : Reads W inv a) : ∃ rest, ReadsHeader isBuiltin W.Y (writtenIn inv) (a.loops, a.spec) rest := by
  cases inv with
  | compose ts => cases h with | mk _ h => exact ⟨_, h⟩
  | composeIdents ts => cases h with | mk _ h => exact ⟨_, h⟩
  | composeItem attr item =>
    obtain ⟨h, -⟩ := h
    generalize hb : { a with block := [] } = b at h
    cases h with
    | mk _ h =>
      simp only [PAst.mk.injEq] at hb
      obtain ⟨-, h1, h2, -⟩ := hb
      rw [h1, h2]
      exact ⟨_, h⟩

/-- **C85**: the tokens of an invocation say which spans the nodes of its definitions have, and say so in one way only: a value points to itself, a call to
the name of the function. -/
theorem C85_source (h : Reads W inv a) (he : STok.eraseL inp = writtenIn inv) (hN : (astIds a).Nodup) :
    (∃ src, StandsInput W.Y P src inp a) ∧
    ∀ src src', StandsInput W.Y P src inp a → StandsInput W.Y P src' inp a → ∀ e ∈ exprsIn a.forget, SameAt src src' e :=
  ⟨exists_source hN (he ▸ header_of_reads h), fun _ _ h h' => h.det h'⟩

/-- **C85**: with these spans, in every copy, the evaluation with spans has the same outcome as that without, and where it succeeds the tokens of the
values of aliases point to where the values were written, which is somewhere in the invocation, or at the invocation itself, or at what covers such places. -/
theorem C85_whole (h : StandsInput W.Y P src inp a) (hN : (astIds a).Nodup) {brs : List (BlockRewrite Alias Expr (List Stmt))}
    (hx : expand a.forget = .ok brs) {br : BlockRewrite Alias Expr (List Stmt)} (hbr : br ∈ brs) {seed : Nat}
    {order : List (Alias × SVal σ) → List (Alias × SVal σ)} (ho : ∀ l, (order l).Perm l) :
    (∀ {order' : List (Alias × VKind) → List (Alias × VKind)}, (∀ l, (order' l).Perm l) →
      Same ((makeSubstitutionsS W.E P src (Env.builtin seed) order br.spec.items).map SubsS.erase)
        (makeSubstitutions W.E (Env.builtin seed) order' br.spec.items)) ∧
    ∀ {subs : SubsS σ}, makeSubstitutionsS W.E P src (Env.builtin seed) order br.spec.items = .ok subs →
      (∃ us tes, subs.Perm us ∧ checkSpec builtinFuncs (named br.spec.items) (fun _ => none) = .ok tes ∧
        Traced P src (fun _ => none) br.spec.items tes us) ∧
      ∀ x ∈ subs, ∀ sp ∈ spans x.2.toTokens, Reach P (spans inp) sp := by
  have hn := rewrite_nodup hN hx br hbr
  have hf := h.fits hx br hbr
  refine ⟨fun ho' => C85_same_values hn ho ho' hf, fun hs => ?_⟩
  obtain ⟨us, tes, h1, h2, h3⟩ := C85_values hn ho hf hs
  refine ⟨⟨us, tes, h1, h2, h3⟩, fun x hx' => ?_⟩
  refine h3.reach (fun _ h => h) (fun n v h => by cases h) (fun d hd => h.mem _ (expand_mem hx br hbr d hd)) x ?_
  exact h1.mem_iff.1 hx'

/-- **C85**: all that the code generated from a node can point to: the node, the invocation, what stands in it, and what covers such places. -/
theorem C85_whole_code (h : StandsInput W.Y P src inp a) (hN : (astIds a).Nodup) {brs : List (BlockRewrite Alias Expr (List Stmt))}
    (hx : expand a.forget = .ok brs) {br : BlockRewrite Alias Expr (List Stmt)} (hbr : br ∈ brs) {seed : Nat}
    {order : List (Alias × SVal σ) → List (Alias × SVal σ)} (ho : ∀ l, (order l).Perm l) {subs : SubsS σ}
    (hs : makeSubstitutionsS W.E P src (Env.builtin seed) order br.spec.items = .ok subs) {valid : Toks → Bool} {node out : SToks σ}
    (h0 : valid (STok.eraseL node) = true) (hc : substituteIdentsS W.E valid subs node = .ok out) {sp : σ} (hsp : sp ∈ spans out) :
    Reach P (spans inp ++ spans node) sp := by
  rcases C85_nowhere_else h0 hc hsp with h1 | ⟨n, v, hl, h1⟩
  · exact .mem (List.mem_append_right _ h1)
  · have hm : (n, v) ∈ subs := by
      rw [← getS_eq_lookup, SubsS.get] at hl
      simp only [Option.map_eq_some_iff] at hl
      obtain ⟨e, he, rfl⟩ := hl
      have hb := List.find?_some he
      simp only [beq_iff_eq] at hb
      subst hb
      exact List.mem_of_find?_eq_some he
    exact (((C85_whole h hN hx hbr ho).2 hs).2 _ hm sp h1).mono fun sp h => List.mem_append_left _ h

/-- `for a in [x, -1] c = concat(a, z), { c }`, the tokens numbered from 1. -/
def demoSpanInput : SToks Nat :=
  [.ident c! "for" 1, .ident c! "a" 2, .ident c! "in" 3,
    .group .bracket [.ident c! "x" 4, .punct ',' false 5, .punct '-' false 6, .lit (.int c! "1" 1) 7] 8,
    .ident c! "c" 9, .punct '=' false 10, .ident c! "concat" 11, .group .paren [.ident c! "a" 12, .punct ',' false 13, .ident c! "z" 14] 15,
    .punct ',' false 16, .group .brace [.ident c! "c" 17] 18]

/-- The nodes of the tree it is read as have different ids, and there are two copies, in both of which the definitions have values. -/
example : ∃ a brs, Reads demoWorld (.compose (STok.eraseL demoSpanInput)) a ∧ (astIds a).Nodup ∧ expand a.forget = .ok brs ∧ brs.length = 2 ∧
    ∀ br ∈ brs, ∃ subs, makeSubstitutions demoWorld.E (Env.builtin 0) (fun l => l) br.spec.items = .ok subs := by
  refine ⟨_, _, reads_of_parse (ids := fun k => k) (k := 0) rfl, by decide +kernel, rfl, rfl, fun br hbr => ?_⟩
  rcases List.mem_cons.1 hbr with rfl | hbr
  · exact ⟨_, rfl⟩
  · cases List.mem_singleton.1 hbr
    exact ⟨_, rfl⟩

/-- `concat(a, -1)` at 1 to 6: the call points to `concat`, the values to themselves, the negative number to sign and digits. -/
example (src : Source Nat) (rest : SToks Nat)
    (h : Stands Syn.demo demoSpans src
      [.ident c! "concat" 1, .group .paren [.ident c! "a" 3, .punct ',' false 4, .punct '-' false 5, .lit (.int c! "1" 1) 6] 2]
      (.call 10 c! "concat" [.value 12 (.ident c! "a"), .value 13 (.litInt ⟨true, c! "1", 1⟩)]
        (some (11, [.ident c! "a", .punct ',' false, .punct '-' false, .lit (.int c! "1" 1)]))) rest) :
    src.calls 10 = 1 ∧ src.vals 12 = .ident c! "a" 3 ∧ src.vals 13 = .litInt ⟨true, c! "1", 1⟩ 5 ∧ rest = [] := by
  let src0 : Source Nat := {
    vals := fun i => if i = 12 then .ident c! "a" 3 else if i = 13 then .litInt ⟨true, c! "1", 1⟩ 5
      else .raw [.ident c! "a" 3, .punct ',' false 4, .punct '-' false 5, .lit (.int c! "1" 1) 6]
    calls := fun _ => 1 }
  have h0 : Stands Syn.demo demoSpans src0
      [.ident c! "concat" 1, .group .paren [.ident c! "a" 3, .punct ',' false 4, .punct '-' false 5, .lit (.int c! "1" 1) 6] 2]
      (.call 10 c! "concat" [.value 12 (.ident c! "a"), .value 13 (.litInt ⟨true, c! "1", 1⟩)]
        (some (11, [.ident c! "a", .punct ',' false, .punct '-' false, .lit (.int c! "1" 1)]))) [] := by
    refine Stands.call (raw := [.ident c! "a" 3, .punct ',' false 4, .punct '-' false 5, .lit (.int c! "1" 1) 6])
      (.here (by intros; nofun)) (.here (by intros; nofun)) rfl rfl ?_
    refine .cons (.value (v := .ident c! "a" 3) (.ident (.here (by intros; nofun))) rfl) (.cons ?_ .nil)
    exact .value (v := .litInt ⟨true, c! "1", 1⟩ 5) (.negInt (P := demoSpans) (.here (by intros; nofun)) (.here (by intros; nofun))) rfl
  obtain ⟨h1, h2⟩ := Stands.det _ h h0
  simp only [SameAt, SameAtL, and_true] at h1
  exact ⟨h1.1, h1.2.2.1, h1.2.2.2, h2⟩

end Verif.Props
