import Verif.Props.Parse
/-!
# Property C70: what `macro_rules!` inserts is read like what is written

A macro that passes a fragment on (`$e:expr`, `$t:ty`, `$b:block`, …) gives it to `compose!` in a group without delimiters.
-/

namespace Verif.Props
open Verif Spec

variable (Y : Syn) (known : Str → Bool) (ids : Nat → Nat)

/-- Tokens that are an identifier or a literal, and the value they stand for. -/
inductive Simple : Toks → VKind → Prop
  | int (r : Str) (n : Nat) : Simple [.lit (.int r n)] (.litInt ⟨false, r, n⟩)
  | negInt (j : Bool) (r : Str) (n : Nat) : Simple [.punct '-' j, .lit (.int r n)] (.litInt ⟨true, r, n⟩)
  | str (r v : Str) : Simple [.lit (.str r v)] (.litStr r v)
  | underscore : Simple [.ident (S "_")] (.ident (S "_"))
  | ident (n : Str) (hn : n ∉ keywords) : Simple [.ident n] (.ident n)

/-- A fragment as `macro_rules!` inserts it: in a group without delimiters, several times if it was passed on through several macros. -/
inductive Inserted : Toks → Toks → Prop
  | once (x : Toks) : Inserted x [.group .none x]
  | again {x y : Toks} (h : Inserted x y) : Inserted x [.group .none y]

theorem Inserted.first {x y : Toks} (h : Inserted x y) (rest : Toks) (t : Tok) (r : Toks) : First (y ++ rest) t r ↔ First (x ++ rest) t r := by
  have one : ∀ z : Toks, First (.group .none z :: rest) t r ↔ First (z ++ rest) t r := by
    intro z
    constructor
    · intro h
      cases h with
      | here h => exact (h _ rfl).elim
      | inside h => exact h.append rest
      | skip hz h => exact hz.first h
    · intro h
      rcases first_append h with ⟨s, rfl, h'⟩ | ⟨hb, h'⟩
      · exact .inside h'
      · exact .skip hb h'
  induction h with
  | once => exact one _
  | again _ ih => exact (one _).trans ih

theorem Inserted.flat {x y : Toks} (h : Inserted x y) : flat y = flat x := by
  induction h with
  | once => simp [Spec.flat, flatTok]
  | again _ ih => simp [Spec.flat, flatTok, ih]

theorem simple_alone {x y : Toks} {v : VKind} (hx : Simple x v) (hy : ∀ t r, First y t r ↔ First x t r) (hf : flat y = flat x) : ReadsValue Y y v [] := by
  have main : ∀ i used, ReadsAs Y i y v used [] → flat used = flat x → i ≤ 3 → (∀ j v' used' rest', ReadsAs Y j y v' used' rest' → j ≤ 3 → j < i → False) →
      ReadsValue Y y v [] := by
    intro i used h hu hi hno
    refine .longest i v used [] h .nil ?_
    intro j v' used' rest' h' _
    have e := congrArg List.length (readsAs_flat h')
    rw [hf, List.length_append, ← hu] at e
    have hr : i ≤ j := by
      by_cases hij : j < i
      · exact (hno j v' used' rest' h' (by omega) hij).elim
      · omega
    omega
  cases hx with
  | int r n => exact main 0 _ (.int ((hy _ _).mpr (by simp))) rfl (by omega) (by omega)
  | negInt j r n => exact main 0 _ (.negInt ((hy _ _).mpr (first_punct.mpr ⟨rfl, rfl⟩)) (by simp)) rfl (by omega) (by omega)
  | str r w =>
    refine main 1 _ (.str ((hy _ _).mpr (by simp))) rfl (by omega) ?_
    intro j v' used' rest' h' _ hj
    cases h' with
    | int h => simpa using (hy _ _).mp h
    | negInt h _ => simpa using (hy _ _).mp h
    | _ => omega
  | underscore =>
    refine main 2 _ (.underscore ((hy _ _).mpr (by simp))) rfl (by omega) ?_
    intro j v' used' rest' h' _ hj
    cases h' with
    | int h => simpa using (hy _ _).mp h
    | negInt h _ => simpa using (hy _ _).mp h
    | str h => simpa using (hy _ _).mp h
    | _ => omega
  | ident n hn =>
    refine main 3 _ (.ident ((hy _ _).mpr (by simp)) hn) rfl (by omega) ?_
    intro j v' used' rest' h' _ hj
    cases h' with
    | int h => simpa using (hy _ _).mp h
    | negInt h _ => simpa using (hy _ _).mp h
    | str h => simpa using (hy _ _).mp h
    | underscore h =>
      have := (hy _ _).mp h
      simp at this
      exact hn (by rw [this.1]; decide)
    | _ => omega

theorem simple_noCall {x y : Toks} {v : VKind} (hx : Simple x v) (hy : ∀ t r, First y t r ↔ First x t r) : ∀ n raw rest, ¬ CallAt known y n raw rest := by
  intro n raw rest h
  cases h with
  | mk h _ _ h' =>
    have := (hy _ _).mp h
    cases hx <;> simp at this
    all_goals
      obtain ⟨-, rfl⟩ := this
      simp at h'

theorem simple_expr {x y : Toks} {v : VKind} (hx : Simple x v) (hy : ∀ t r, First y t r ↔ First x t r) (hf : flat y = flat x) (k : Nat) :
    ∃ id k', parseE Y known ids y k = (.ok (.value id v, []), k') := by
  rcases (parseE_ok Y known ids y k).cases with ⟨e, r, k', h1, g⟩ | ⟨_, _, _, h⟩
  · cases g.reads with
    | call id rid h' ha => exact (simple_noCall known hx hy _ _ _ h').elim
    | dropped id rid h' ha => exact (simple_noCall known hx hy _ _ _ h').elim
    | value id hn h =>
      obtain ⟨rfl, rfl⟩ := readsValue_unique h (simple_alone Y hx hy hf)
      exact ⟨_, _, h1⟩
  · exact h.elim

/-- **C70**: an argument that is an identifier or a literal is read as this identifier or literal, whether it is written directly or
inserted by `macro_rules!`. -/
theorem C70_argument {x y : Toks} {v : VKind} (hx : Simple x v) (hy : Inserted x y) (k : Nat) :
    (∃ id k', parseE Y known ids x k = (.ok (.value id v, []), k')) ∧ ∃ id k', parseE Y known ids y k = (.ok (.value id v, []), k') :=
  ⟨simple_expr Y known ids hx (fun _ _ => Iff.rfl) rfl k, simple_expr Y known ids hx (by simpa using hy.first []) hy.flat k⟩

theorem callAt_inserted {x y rest : Toks} (hy : Inserted x y) {n raw r} : CallAt known (y ++ rest) n raw r ↔ CallAt known (x ++ rest) n raw r := by
  constructor <;> intro h
  · cases h with
    | mk h hk hn h' => exact .mk ((hy.first ..).mp h) hk hn h'
  · cases h with
    | mk h hk hn h' => exact .mk ((hy.first ..).mpr h) hk hn h'

/-- **C70**: a call is evaluated as a call whether it is written directly or inserted by `macro_rules!`. Neither does it matter whether
the parentheses are part of the fragment. -/
theorem C70_call {x y rest : Toks} (hy : Inserted x y) {n : Str} {raw r : Toks} (hc : CallAt known (x ++ rest) n raw r) (k : Nat) :
    ∃ e e' k1 k2, parseE Y known ids (x ++ rest) k = (.ok (e, r), k1) ∧ parseE Y known ids (y ++ rest) k = (.ok (e', r), k2) ∧ e'.erase = e.erase := by
  have move : ∀ {e}, ReadsExpr known Y (x ++ rest) e r → ReadsExpr known Y (y ++ rest) e r := by
    intro e h
    cases h with
    | call id rid h ha => exact .call id rid ((callAt_inserted known hy).mpr h) ha
    | dropped id rid h hp he => exact .dropped id rid ((callAt_inserted known hy).mpr h) hp he
    | value id hn => exact (hn _ _ _ hc).elim
  rcases (parseE_ok Y known ids (x ++ rest) k).cases with ⟨e, r1, k1, h1, g1⟩ | ⟨_, _, _, h⟩
  · rcases (parseE_ok Y known ids (y ++ rest) k).cases with ⟨e', r2, k2, h2, g2⟩ | ⟨_, _, _, h⟩
    · have hr : r1 = r := by
        cases g1.reads with
        | call id rid h => exact (callAt_unique hc h).2.2
        | dropped id rid h => exact (callAt_unique hc h).2.2
        | value id hn => exact (hn _ _ _ hc).elim
      subst hr
      obtain ⟨rfl, he⟩ := g2.uniq _ _ (move g1.reads)
      exact ⟨e, e', k1, k2, h1, h2, he.symm⟩
    · exact h.elim
  · exact h.elim

theorem reads_list {x y rest : Toks} (hy : Inserted x y) {p : Tok} (hp : ∀ c, p ≠ .group .none c) {l r}
    (h : ReadsLoop known Y (.ident (S "for") :: p :: .ident (S "in") :: (y ++ rest)) l r) :
    ReadsLoop known Y (.ident (S "for") :: p :: .ident (S "in") :: (x ++ rest)) l r := by
  cases h with
  | mk id lid ha hb hv =>
    cases ha with
    | tuple tid hc h =>
      obtain ⟨rfl, e⟩ := (first_cons hp).mp hc
      cases e
      exact .mk id lid (.tuple tid (.here (by simp)) h) ((hy.first ..).mp hb) hv
    | simple hn h =>
      cases h with
      | mk aid h hk =>
        obtain ⟨rfl, e⟩ := (first_cons hp).mp h
        cases e
        exact .mk id lid (.simple (fun c r as h' => by simp at h') (.mk aid (.here (by simp)) hk)) ((hy.first ..).mp hb) hv

theorem reads_list' {x y rest : Toks} (hy : Inserted x y) {p : Tok} (hp : ∀ c, p ≠ .group .none c) {l r}
    (h : ReadsLoop known Y (.ident (S "for") :: p :: .ident (S "in") :: (x ++ rest)) l r) :
    ReadsLoop known Y (.ident (S "for") :: p :: .ident (S "in") :: (y ++ rest)) l r := by
  cases h with
  | mk id lid ha hb hv =>
    cases ha with
    | tuple tid hc h =>
      obtain ⟨rfl, e⟩ := (first_cons hp).mp hc
      cases e
      exact .mk id lid (.tuple tid (.here (by simp)) h) ((hy.first ..).mpr hb) hv
    | simple hn h =>
      cases h with
      | mk aid h hk =>
        obtain ⟨rfl, e⟩ := (first_cons hp).mp h
        cases e
        exact .mk id lid (.simple (fun c r as h' => by simp at h') (.mk aid (.here (by simp)) hk)) ((hy.first ..).mpr hb) hv

theorem input_list {ts ts' : Toks} (hl : ∀ l r, ReadsLoop known Y (.ident (S "for") :: ts) l r → ReadsLoop known Y (.ident (S "for") :: ts') l r) {a : PAst}
    (h : ReadsInput known Y (.ident (S "for") :: ts) a) : ReadsInput known Y (.ident (S "for") :: ts') a := by
  cases h with
  | mk id h hm hb ht =>
    refine .mk id ?_ hm hb ht
    cases h with
    | mk hl' hs =>
      refine .mk ?_ hs
      rcases hl' with ⟨_, _, h⟩ | ⟨i, l, rfl, hne, h⟩
      · exact (h _ rfl).elim
      · refine .inr ⟨i, l, rfl, hne, ?_⟩
        cases h with
        | nil h => exact (h _ rfl).elim
        | cons h hs => exact .cons (hl _ _ h) hs

/-- **C70**: the list of a loop may be inserted by `macro_rules!`: the input is accepted if and only if it is accepted with the list
written directly, with the same result. -/
theorem C70_list {x y rest : Toks} (hy : Inserted x y) {p : Tok} (hp : ∀ c, p ≠ .group .none c) (k : Nat) (sv : Service) (hb : 1 ≤ sv.borrowed) :
    (∀ a, (parseRawAst Y known ids (.ident (S "for") :: p :: .ident (S "in") :: (y ++ rest)) k (some sv)).1 = .ok a →
      ∃ a', (parseRawAst Y known ids (.ident (S "for") :: p :: .ident (S "in") :: (x ++ rest)) k (some sv)).1 = .ok a' ∧ astErase a' = astErase a) ∧
    ∀ a, (parseRawAst Y known ids (.ident (S "for") :: p :: .ident (S "in") :: (x ++ rest)) k (some sv)).1 = .ok a →
      ∃ a', (parseRawAst Y known ids (.ident (S "for") :: p :: .ident (S "in") :: (y ++ rest)) k (some sv)).1 = .ok a' ∧ astErase a' = astErase a := by
  constructor
  · intro a ha
    exact (C58_function_like Y known ids _ k sv hb).2 a
      (input_list Y known (fun _ _ => reads_list Y known hy hp) ((C58_function_like Y known ids _ k sv hb).1 a ha))
  · intro a ha
    exact (C58_function_like Y known ids _ k sv hb).2 a
      (input_list Y known (fun _ _ => reads_list' Y known hy hp) ((C58_function_like Y known ids _ k sv hb).1 a ha))

/-- **C70**: the block may be inserted by `macro_rules!`: when loops and definitions are followed by such a fragment, the input is
accepted, with the statements of the block. -/
theorem C70_block {ts y b : Toks} {ls : Option PLoops} {s : Option PSpec} {block : List Stmt} (hy : Inserted [.group .brace b] y)
    (hh : ReadsHeader known Y ts (ls, s) y) (hbl : Y.parseBlock b = some block) (k : Nat) (sv : Service) (hb : 1 ≤ sv.borrowed) :
    ∃ a, (parseRawAst Y known ids ts k (some sv)).1 = .ok a ∧ astErase a = astErase ⟨0, ls, s, block⟩ := by
  refine (C58_function_like Y known ids _ k sv hb).2 _ ?_
  refine .mk 0 hh (tail := []) ?_ hbl (.inl rfl)
  simpa using (hy.first [] (.group .brace b) []).mpr (by simp)

def none' (ts : Toks) : Tok := .group .none ts

-- `concat(foo, _, $t)` with `$t:ty` being `u8`
example : ∃ a, (parseRawAst Syn.demo demoKnown (fun k => k)
    [id' "f", eq', id' "concat", paren [id' "foo", comma, id' "_", comma, none' [id' "u8"]], comma, brace []] 0 (some demoService)).1 = .ok a ∧
    a.spec.map (·.items.map itemErase) = some [(S "f", .call 0 (S "concat") [.value 0 (.ident (S "foo")), .value 0 (.ident (S "_")), .value 0 (.ident (S "u8"))]
      (some (0, [id' "foo", comma, id' "_", comma, none' [id' "u8"]])))] := ⟨_, rfl, rfl⟩

-- `a = $e, $b` with `$e:expr` being `lower(X)` and `$b:block` being `{}`
example : ∃ a, (parseRawAst Syn.demo demoKnown (fun k => k)
    [id' "a", eq', none' [id' "lower", paren [id' "X"]], comma, none' [brace []]] 0 (some demoService)).1 = .ok a ∧
    a.spec.map (·.items.map itemErase) = some [(S "a", .call 0 (S "lower") [.value 0 (.ident (S "X"))] (some (0, [id' "X"])))] := ⟨_, rfl, rfl⟩

-- `for x in $l {}` with `$l:expr` being `[a, b]`
example : ∃ a, (parseRawAst Syn.demo demoKnown (fun k => k)
    [id' "for", id' "x", id' "in", none' [.group .bracket [id' "a", comma, id' "b"]], brace []] 0 (some demoService)).1 = .ok a ∧
    a.loops.map (·.loops.map loopErase) =
      some [(.simple (S "x"), [.simple (.value 0 (.ident (S "a"))), .simple (.value 0 (.ident (S "b")))])] := ⟨_, rfl, rfl⟩

example : Inserted [id' "u8"] [none' [none' [id' "u8"]]] ∧ Simple [id' "u8"] (.ident (S "u8")) :=
  ⟨.again (.once _), .ident _ (by decide)⟩

end Verif.Props
