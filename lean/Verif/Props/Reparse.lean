import Verif.Proofs.VisitorParses
import Verif.Proofs.Size
import Verif.Props.Visitor
/-!
# Property C102: how often the code is parsed again

`Model/Parses` and `Model/VisitorParses` are the model with a record of the streams that are parsed while aliases are replaced.
-/

namespace Verif.Props
open Verif Spec

variable {E : Ext} {G : Grammar} {valid : Toks → Bool} {subs : Subs}

/-- **C102**: the record changes nothing. -/
theorem C102_same (node : Toks) (b : List Stmt) :
    (substituteIdentsP E valid subs node).res = substituteIdents E valid subs node ∧
    (visitBlockP E G subs b).bind (·.res) = visitBlock E G subs b := by
  refine ⟨substituteIdentsP_res node, ?_⟩
  rw [visitBlockP_eq]
  cases visitBlock E G subs b <;> rfl

/-- **C102** for a piece of code: it is parsed after each replacement, with the replacements made so far, up to the first time
that it is not valid, and at the end once more. Nothing else is parsed. -/
theorem C102_node {fmt : Str → Str} (hf : FormatsAll E subs fmt) (node : Toks) :
    (substituteIdentsP E valid subs node).parsed =
      tried valid (stages (valueToks subs) (litWith E fmt) node ++ [substAll (valueToks subs) (litWith E fmt) node]) := by
  rw [litWith_eq hf, valueToks_eq]
  exact substituteIdentsP_parsed node

/-- **C102**, number: if the replacement succeeds, the code has been parsed once for each alias and each string literal in it,
and once more. -/
theorem C102_count {node out : Toks} (h : substituteIdents E valid subs node = .ok out) :
    (substituteIdentsP E valid subs node).parsed.length = (occAll (valueToks subs) node).length + 1 := by
  rw [substituteIdentsP_parsed, tried_all _ _ (substituteIdents_good h), valueToks_eq]
  simp [stages]

/-- **C102** for a block: if the replacement succeeds, what is parsed is what is parsed for its pieces, one after the other;
if it fails, the same up to the first stream that is not valid. -/
theorem C102_block {fmt : Str → Str} (hf : FormatsAll E subs fmt) (b : List Stmt) :
    (∀ b', visitBlock E G subs b = .ok b' → visitBlockP E G subs b =
      .ok ⟨.ok b', (partsParsed (valueToks subs) (litWith E fmt) (stmtsParts b)).map (·.2)⟩) ∧
    (∀ e, visitBlock E G subs b = .err e → visitBlockP E G subs b =
      .ok ⟨.err e, (tried (fun p => validPart G p.1 p.2) (partsParsed (valueToks subs) (litWith E fmt) (stmtsParts b))).map (·.2)⟩) := by
  rw [litWith_eq hf, valueToks_eq, visitBlockP_eq]
  refine ⟨fun b' h => ?_, fun e h => ?_⟩
  · rw [h]
  · rw [h]; rfl

/-- **C102**, number of parses for a block: each piece is parsed once for each alias and each string literal in it and once
more; a statement that is not an item is also parsed once before. -/
theorem C102_block_count {b b' : List Stmt} (h : visitBlock E G subs b = .ok b') :
    ∃ l, visitBlockP E G subs b = .ok ⟨.ok b', l⟩ ∧
      l.length = ((stmtsParts b).map (fun p =>
        (occAll (valueToks subs) p.2).length + (if p.1 = .block then 2 else 1))).sum := by
  obtain ⟨fmt, hf⟩ := formatting_exists E subs
  refine ⟨_, (C102_block hf b).1 b' h, ?_⟩
  rw [List.length_map]
  generalize stmtsParts b = ps
  induction ps with
  | nil => rfl
  | cons p ps ih =>
    simp only [partsParsed, List.flatMap_cons, List.length_append, List.map_cons, List.sum_cons] at ih ⊢
    rw [ih]
    simp only [partParsed, stages, List.length_append, List.length_map, List.length_range, List.length_cons, List.length_nil]
    split <;> simp <;> omega

/-- Number of tokens in all the streams. -/
def tokensIn (l : List Toks) : Nat := (l.map count).sum

mutual
theorem substFirstTok_count_le {look : Str → Option Toks} {str : Str → Lit} {B : Nat} (hB : 1 ≤ B)
    (h : ∀ n ts, look n = some ts → count ts ≤ B) (k : Nat) (t : Tok) : count (substFirstTok look str k t) ≤ B * countTok t := by
  match t with
  | .ident n =>
    simp only [substFirstTok, countTok, Nat.mul_one]
    split
    · simpa [count, countTok] using hB
    · cases hn : look n with
      | none => simpa [count, countTok] using hB
      | some ts => exact h n ts hn
  | .punct c j => simpa [substFirstTok, count, countTok] using hB
  | .lit (.str r v) => simp only [substFirstTok]; split <;> simpa [count, countTok] using hB
  | .lit (.int r v) => simpa [substFirstTok, count, countTok] using hB
  | .lit (.other r) => simpa [substFirstTok, count, countTok] using hB
  | .group d ts =>
    have := substFirst_count_le (str := str) hB h k ts
    simp only [substFirstTok, count, countTok, Nat.mul_add, Nat.mul_one]
    omega
theorem substFirst_count_le {look : Str → Option Toks} {str : Str → Lit} {B : Nat} (hB : 1 ≤ B)
    (h : ∀ n ts, look n = some ts → count ts ≤ B) (k : Nat) (ts : Toks) : count (substFirst look str k ts) ≤ B * count ts := by
  match ts with
  | [] => simp [substFirst, count]
  | t :: ts =>
    have h1 := substFirstTok_count_le (str := str) hB h k t
    have h2 := substFirst_count_le (str := str) hB h (k - (occTok look t).length) ts
    simp only [substFirst, count, Nat.mul_add, count_flat]
    omega
end

theorem tokensIn_le {l : List Toks} {m : Nat} (h : ∀ ts ∈ l, count ts ≤ m) : tokensIn l ≤ l.length * m := by
  induction l with
  | nil => simp [tokensIn]
  | cons a l ih =>
    have h1 := h a List.mem_cons_self
    have h2 := ih (fun ts hts => h ts (List.mem_cons_of_mem _ hts))
    simp only [tokensIn, List.map_cons, List.sum_cons, List.length_cons, Nat.succ_mul] at *
    omega

theorem le_tokensIn {l : List Toks} {m : Nat} (h : ∀ ts ∈ l, m ≤ count ts) : l.length * m ≤ tokensIn l := by
  induction l with
  | nil => simp [tokensIn]
  | cons a l ih =>
    have h1 := h a List.mem_cons_self
    have h2 := ih (fun ts hts => h ts (List.mem_cons_of_mem _ hts))
    simp only [tokensIn, List.map_cons, List.sum_cons, List.length_cons, Nat.succ_mul] at *
    omega

/-- **C102**, amount: if no value has more than `B` tokens, at most `B` times the number of tokens of the code is parsed each
time. -/
theorem C102_amount {B : Nat} (hB : 1 ≤ B) (hv : ∀ n ts, valueToks subs n = some ts → count ts ≤ B) {node out : Toks}
    (h : substituteIdents E valid subs node = .ok out) :
    tokensIn (substituteIdentsP E valid subs node).parsed ≤ ((occAll (valueToks subs) node).length + 1) * (B * count node) := by
  obtain ⟨fmt, hf⟩ := formatting_exists E subs
  rw [← C102_count h]
  apply tokensIn_le
  rw [C102_node hf, litWith_eq hf, valueToks_eq, tried_all _ _ (substituteIdents_good h)]
  rw [valueToks_eq] at hv
  intro ts hts
  rcases List.mem_append.1 hts with hts | hts
  · simp only [stages, List.mem_map, List.mem_range] at hts
    obtain ⟨k, -, rfl⟩ := hts
    exact substFirst_count_le hB hv _ _
  · simp only [List.mem_singleton] at hts
    rw [hts, substAll_count]
    refine filled_le hB (fun n k hk => ?_) node
    simp only [Option.map_eq_some_iff] at hk
    obtain ⟨us, hus, rfl⟩ := hk
    exact hv n us hus

mutual
theorem substFirstTok_count_ge {look : Str → Option Toks} {str : Str → Lit}
    (h : ∀ n ts, look n = some ts → 1 ≤ count ts) (k : Nat) (t : Tok) : countTok t ≤ count (substFirstTok look str k t) := by
  match t with
  | .ident n =>
    simp only [substFirstTok, countTok]
    split
    · simp [count, countTok]
    · cases hn : look n with
      | none => simp [count, countTok]
      | some ts => exact h n ts hn
  | .punct c j => simp [substFirstTok, count, countTok]
  | .lit (.str r v) => simp only [substFirstTok]; split <;> simp [count, countTok]
  | .lit (.int r v) => simp [substFirstTok, count, countTok]
  | .lit (.other r) => simp [substFirstTok, count, countTok]
  | .group d ts =>
    have := substFirst_count_ge (str := str) h k ts
    simp only [substFirstTok, count, countTok]
    omega
theorem substFirst_count_ge {look : Str → Option Toks} {str : Str → Lit}
    (h : ∀ n ts, look n = some ts → 1 ≤ count ts) (k : Nat) (ts : Toks) : count ts ≤ count (substFirst look str k ts) := by
  match ts with
  | [] => simp [substFirst, count]
  | t :: ts =>
    have h1 := substFirstTok_count_ge (str := str) h k t
    have h2 := substFirst_count_ge (str := str) h (k - (occTok look t).length) ts
    simp only [substFirst, count, count_flat]
    omega
end

/-- **C102**, amount from below: if no value is empty, at least the number of tokens of the code is parsed each time (but
perhaps the last). -/
theorem C102_amount_least (hv : ∀ n ts, valueToks subs n = some ts → 1 ≤ count ts) {node out : Toks}
    (h : substituteIdents E valid subs node = .ok out) :
    (occAll (valueToks subs) node).length * count node ≤ tokensIn (substituteIdentsP E valid subs node).parsed := by
  obtain ⟨fmt, hf⟩ := formatting_exists E subs
  rw [C102_node hf, litWith_eq hf, valueToks_eq, tried_all _ _ (substituteIdents_good h)]
  rw [valueToks_eq] at hv
  have h1 : (stages (lookToks subs) (strLit E subs) node).length * count node ≤
      tokensIn (stages (lookToks subs) (strLit E subs) node) := by
    apply le_tokensIn
    intro ts hts
    simp only [stages, List.mem_map, List.mem_range] at hts
    obtain ⟨k, -, rfl⟩ := hts
    exact substFirst_count_ge hv _ _
  have h2 : tokensIn (stages (lookToks subs) (strLit E subs) node ++ [substAll (lookToks subs) (strLit E subs) node]) =
      tokensIn (stages (lookToks subs) (strLit E subs) node) + count (substAll (lookToks subs) (strLit E subs) node) := by
    simp [tokensIn]
  simp only [stages, List.length_map, List.length_range] at h1
  rw [h2]
  simp only [stages] at h1 ⊢
  omega

/-- `a a … a`, for instance in the call of a macro. -/
def repeated (n : Nat) : Toks := List.replicate n (.ident (S "a"))

theorem repeated_occ (n : Nat) : (occAll (valueToks [(S "a", .ident (S "b"))]) (repeated n)).length = n := by
  induction n with
  | zero => rfl
  | succ n ih =>
    simp only [repeated, List.replicate_succ, occAll, List.length_append] at ih ⊢
    rw [ih, show (occTok (valueToks [(S "a", .ident (S "b"))]) (.ident (S "a"))).length = 1 from rfl]
    omega

theorem repeated_count (n : Nat) : count (repeated n) = n := by
  induction n with
  | zero => rfl
  | succ n ih =>
    simp only [repeated, List.replicate_succ, count, countTok] at ih ⊢
    omega

/-- **C102**: so the work is not proportional to the size of the code before and after: there is no constant for it. -/
theorem C102_quadratic (E : Ext) (c : Nat) : ∃ (subs : Subs) (node out : Toks),
    substituteIdents E (fun _ => true) subs node = .ok out ∧
      c * (count node + count out) < tokensIn (substituteIdentsP E (fun _ => true) subs node).parsed := by
  obtain ⟨fmt, hf⟩ := formatting_exists E [(S "a", .ident (S "b"))]
  have hv : ∀ n ts, valueToks [(S "a", .ident (S "b"))] n = some ts → count ts = 1 := by
    intro n ts h
    simp only [valueToks, codeOf_eq, List.lookup] at h
    split at h
    · cases h; rfl
    · cases h
  have hok := C11_succeeds (valid := fun _ => true) hf (node := repeated (2 * c + 1)) rfl (fun _ => rfl)
  refine ⟨_, _, _, hok, ?_⟩
  have h1 := C102_amount_least (fun n ts h => Nat.le_of_eq (hv n ts h).symm) hok
  rw [repeated_occ, repeated_count] at h1
  have h2 : count (substAll (valueToks [(S "a", .ident (S "b"))]) (litWith E fmt) (repeated (2 * c + 1))) ≤ 1 * count (repeated (2 * c + 1)) := by
    rw [substAll_count]
    refine filled_le (Nat.le_refl 1) (fun n k hk => ?_) _
    simp only [Option.map_eq_some_iff] at hk
    obtain ⟨us, hus, rfl⟩ := hk
    exact Nat.le_of_eq (hv n us hus)
  rw [repeated_count] at h2 ⊢
  refine Nat.lt_of_lt_of_le ?_ h1
  calc c * (2 * c + 1 + count (substAll (valueToks [(S "a", .ident (S "b"))]) (litWith E fmt) (repeated (2 * c + 1))))
      ≤ c * (2 * (2 * c + 1)) := Nat.mul_le_mul_left _ (by omega)
    _ = 2 * c * (2 * c + 1) := by rw [← Nat.mul_assoc, Nat.mul_comm c 2]
    _ < (2 * c + 1) * (2 * c + 1) := Nat.mul_lt_mul_of_pos_right (by omega) (by omega)

/-- The code `x { a ( b ) "% a %" }` is parsed four times. -/
example : (substituteIdentsP Ext.demo (fun _ => true) demoSubs demoNode).parsed =
    [[.ident (S "x"), .group .brace [.ident (S "Foo"), .group .paren [.ident (S "b")], .lit (.str (S "\"% a %\"") (S "% a %"))]],
     [.ident (S "x"), .group .brace [.ident (S "Foo"), .group .paren [.ident (S "a"), .punct '+' false, .ident (S "b")],
        .lit (.str (S "\"% a %\"") (S "% a %"))]],
     [.ident (S "x"), .group .brace [.ident (S "Foo"), .group .paren [.ident (S "a"), .punct '+' false, .ident (S "b")],
        .lit (.str (S "\"Foo\"") (S "Foo"))]],
     [.ident (S "x"), .group .brace [.ident (S "Foo"), .group .paren [.ident (S "a"), .punct '+' false, .ident (S "b")],
        .lit (.str (S "\"Foo\"") (S "Foo"))]]] := by decide +kernel
/-- String literals count even if nothing in them changes. -/
example : (substituteIdentsP Ext.demo (fun _ => true) [] [.ident (S "x"), .lit (.str (S "\"y\"") (S "y"))]).parsed.length = 2 := by
  decide +kernel
/-- It stops at the first stream that is not valid. -/
example : (substituteIdentsP Ext.demo (fun ts => ts.length ≤ 2) demoSubs [.ident (S "a"), .ident (S "b"), .ident (S "a")]).parsed.length = 1 := by
  decide +kernel
/-- A struct with an attribute and a field, and a function with one statement. -/
example : ∃ b' l, visitBlock Ext.demo Grammar.demo demoSubs (demoBlock []) = .ok b' ∧
    visitBlockP Ext.demo Grammar.demo demoSubs (demoBlock []) = .ok ⟨.ok b', l⟩ ∧ l.length = 17 := ⟨_, _, rfl, rfl, by decide +kernel⟩
example : ∀ n ts, valueToks demoSubs n = some ts → 1 ≤ count ts ∧ count ts ≤ 3 := by
  intro n ts h
  simp only [valueToks, codeOf_eq, demoSubs, List.lookup] at h
  split at h
  · cases h; decide
  · split at h
    · cases h; decide
    · cases h

end Verif.Props
