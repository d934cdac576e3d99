import Verif.Proofs.Size
import Verif.Props.Whole
/-!
# Property C100: the size of the generated code

The generated code should not be much larger than the input: copies times the code of the block times the size of the definitions, say. The first part is proved,
the last one is wrong: definitions can double each other, so that sizes of definitions are multiplied, not added.
-/

namespace Verif.Props
open Verif Spec

/-- **C100**: the value of a definition has at most as many tokens as its text, where each call counts for one and each alias for its value. -/
theorem C100_value {E : Ext} {seed : Nat} {pre : List (Str × Expr)} {y : Str} {e : Expr} {r : Subs} (h : outcome E (Env.builtin seed) (pre ++ [(y, e)]) = .ok r) :
    ∃ vs v, outcome E (Env.builtin seed) pre = .ok vs ∧ r = vs ++ [(y, v)] ∧ bulk v ≤ grown (fun n => (List.lookup n vs).map bulk) e := by
  obtain ⟨vs, -, hv, -⟩ := outcome_prefix h
  obtain ⟨v, rfl, h1⟩ := outcome_grown rfl hv h
  refine ⟨vs, v, hv, rfl, ?_⟩
  simpa only [get_eq_lookup] using h1

/-- **C100**: no value has more tokens than the product of the sizes of the definitions. -/
theorem C100_values_partial {E : Ext} {seed : Nat} {ds : List (Str × Expr)} {vs : Subs} (h : outcome E (Env.builtin seed) ds = .ok vs) :
    ∀ p ∈ vs, bulk p.2 ≤ growth ds := outcome_growth rfl h

/-- **C100**: the number of tokens of code in which aliases have been replaced is that of the code with every alias counted for its value; nothing
else makes code longer or shorter. -/
theorem C100_code {E : Ext} {valid : Toks → Bool} {subs : Subs} {node out : Toks} (h : substituteIdents E valid subs node = .ok out) :
    count out = filled (fun n => (List.lookup n subs).map bulk) node := by
  obtain ⟨fmt, hf⟩ := formatting_exists E subs
  rw [C11_structural_map hf h, substAll_count]
  have : (fun n => (valueToks subs n).map count) = fun n => (List.lookup n subs).map bulk := by
    funext n
    simp only [valueToks, codeOf_eq, Option.map_map]
    rfl
  rw [this]

/-- The size of code into which pieces are inserted. -/
theorem inserts_count {q : Toks → Toks} (hq : Coarse q) {xs : List Toks} {a b : Toks} (h : Inserts xs a b) :
    count (q b) = count (q a) + count (q xs.flatten) := by
  induction h with
  | nil => simp [hq.nil, count]
  | @keep xs a b t _ ih =>
    have : ∀ l : Toks, q (t :: l) = q [t] ++ q l := fun l => hq.append [t] l
    rw [this a, this b, count_flat, count_flat, ih]
    omega
  | @group xs ys us vs a b d _ _ ih1 ih2 =>
    rw [hq.group, hq.group, List.flatten_append, hq.append, count_flat]
    simp only [count, countTok]
    omega
  | @insert xs a b x _ ih =>
    rw [hq.append, List.flatten_cons, hq.append, count_flat, count_flat]
    omega

/-- The number of tokens of several pieces of code. -/
theorem flatten_count {q : Toks → Toks} (hq : Coarse q) : ∀ (cs : List Toks), count (q cs.flatten) = (cs.map fun c => count (q c)).sum
  | [] => by simp [hq.nil, count]
  | c :: cs => by rw [List.flatten_cons, hq.append, count_flat, flatten_count hq cs]; simp

/-- **C100**: each copy of the block has at most as many tokens as the block times the product of the sizes of the definitions, and the twelve tokens of the warning
about semicolons. Missing (and wrong, see `C100_false`): the sum of the sizes of the definitions instead of the product. -/
theorem C100_partial {W : World} {q : Toks → Toks} (hW : GoodSyntax q W) (hq : ∀ ts, count (q ts) ≤ count ts) {hist : List (Invocation × Luck)}
    {inv : Invocation} {l : Luck} (hs : Scheduled W hist inv l) {a : PAst} (ha : Reads W inv a) {ts : Toks}
    (hk : ∀ its, InForce a its → ∀ defs ∈ its, ∀ s ∈ itemKeywords, s ∉ defs.map (·.1)) (h : output W hist inv l = .tokens ts) :
    ∃ (its : List (List (Str × Expr))) (cs : List Toks), InForce a its ∧ ts = cs.flatten ∧ cs.length = its.length ∧
      (∀ (i : Nat) (defs : List (Str × Expr)), its[i]? = some defs →
        ∃ c, cs[i]? = some c ∧ count (q c) ≤ count (stmtsToks (stmtsNoWhere a.block)) * growth defs + 12) ∧
      count (q ts) ≤ (its.map fun defs => count (stmtsToks (stmtsNoWhere a.block)) * growth defs + 12).sum := by
  obtain ⟨its, cs, h1, h2, h3, h4⟩ := C59_warned hW hs ha hk h
  have key : ∀ (i : Nat) (defs : List (Str × Expr)), its[i]? = some defs →
      ∃ c, cs[i]? = some c ∧ count (q c) ≤ count (stmtsToks (stmtsNoWhere a.block)) * growth defs + 12 := by
    intro i defs hd
    obtain ⟨vs, h5, h6⟩ := h4 i defs hd
    obtain ⟨fmt, hf⟩ := formatting_exists W.E vs
    obtain ⟨c, ws, b, h7, h8, h9, h10⟩ := h6 fmt hf
    refine ⟨c, h7, ?_⟩
    rw [inserts_count hW.coarse h9, h8]
    have h11 := hq (substAll (valueToks vs) (litWith W.E fmt) (stmtsToks (stmtsNoWhere a.block)))
    rw [substAll_count] at h11
    have h12 : ∀ n k, (fun n => (valueToks vs n).map count) n = some k → k ≤ growth defs := by
      intro n k hk
      simp only [valueToks, codeOf_eq, Option.map_map, Option.map_eq_some_iff] at hk
      obtain ⟨v, hv, rfl⟩ := hk
      exact C100_values_partial h5 _ (lookup_mem' hv)
    have h13 := filled_le (growth_pos defs) h12 (stmtsToks (stmtsNoWhere a.block))
    have h14 : count (q ws.flatten) ≤ 12 := by
      refine Nat.le_trans (hq _) ?_
      rcases h10 with rfl | rfl
      · exact Nat.zero_le _
      · exact Nat.le_refl _
    rw [Nat.mul_comm] at h13
    omega
  refine ⟨its, cs, h1, h2, h3, key, ?_⟩
  rw [h2, flatten_count hW.coarse]
  clear h2 h4 h1 h
  induction cs generalizing its with
  | nil => simp
  | cons c cs ih =>
    cases its with
    | nil => cases h3
    | cons defs its =>
      obtain ⟨c', hc, h5⟩ := key 0 defs rfl
      cases hc
      have := ih its (by simpa using h3) (fun i ds hd => key (i + 1) ds hd)
      simp only [List.map_cons, List.sum_cons]
      omega

/-! ## Doubling -/

/-- Names of aliases: `y`, `yy`, and so on. -/
def longName (n : Nat) : Str := List.replicate (n + 1) 'y'

/-- `y = raw(x x), yy = concat(y, y), yyy = concat(yy, yy)`, and so on. -/
def doubling : Nat → List (Str × Expr)
  | 0 => [(longName 0, .call 0 (S "raw") [] (some (0, [.ident (S "x"), .ident (S "x")])))]
  | n + 1 => doubling n ++ [(longName (n + 1), .call 0 (S "concat") [.value 0 (.ident (longName n)), .value 0 (.ident (longName n))] none)]

theorem doubling_names (n : Nat) : (doubling n).map (·.1) = (List.range (n + 1)).map longName := by
  induction n with
  | zero => rfl
  | succ n ih => rw [doubling, List.map_append, ih, List.range_succ (n := n + 1)]; simp

theorem doubling_values (E : Ext) (seed n : Nat) : ∃ (vs : Subs) (ts : Toks), outcome E (Env.builtin seed) (doubling n) = .ok vs ∧ vs.get (longName n) = some (.tokens ts) ∧
    count ts = 2 ^ (n + 1) := by
  induction n with
  | zero => exact ⟨[(longName 0, .tokens [.ident (S "x"), .ident (S "x")])], _, rfl, rfl, rfl⟩
  | succ n ih =>
    obtain ⟨vs, ts, h1, h2, h3⟩ := ih
    have hn : vs.get (longName (n + 1)) = none := by
      have h4 := (denote_names (outcome_ok.1 h1).2).1
      rw [doubling_names] at h4
      rw [get_eq_lookup, List.lookup_eq_none_iff]
      intro p hp
      simp only [bne_iff_ne, ne_eq]
      intro he
      have : longName (n + 1) ∈ vs.map (·.1) := he ▸ List.mem_map_of_mem hp
      rw [h4, List.mem_map] at this
      obtain ⟨k, hk, he⟩ := this
      have := congrArg List.length he
      simp [longName] at this hk
      omega
    refine ⟨_, ts ++ ts, outcome_doubled rfl h1 h2 hn 0 0 0 none, ?_, ?_⟩
    · rw [Subs.get_append, hn]
      simp [Subs.get]
    · rw [count_flat, h3]
      omega

theorem doubling_written (n : Nat) : (doubling n).map (fun d => written d.2) = List.replicate (n + 1) 3 := by
  induction n with
  | zero => rfl
  | succ n ih =>
    rw [doubling, List.map_append, ih, List.replicate_succ' (n := n + 1)]
    rfl

theorem sq_lt_pow (j : Nat) : 2 * (j + 2) * (j + 2) + 2 * (j + 2) < 4 ^ (j + 2) := by
  induction j with
  | zero => decide
  | succ j ih =>
    rw [Nat.pow_succ]
    have : 2 * (j + 1 + 2) * (j + 1 + 2) + 2 * (j + 1 + 2) ≤ (2 * (j + 2) * (j + 2) + 2 * (j + 2)) * 4 := by
      generalize hm : j + 2 = m
      have : j + 1 + 2 = m + 1 := by omega
      rw [this]
      have : 2 ≤ m := by omega
      have h2 : 2 * (m + 1) * (m + 1) = 2 * m * m + 4 * m + 2 := by
        grind
      have h3 : m ≤ m * m := Nat.le_mul_of_pos_left _ (by omega)
      have h4 : 2 * m * m = 2 * (m * m) := Nat.mul_assoc _ _ _
      omega
    omega

theorem poly_lt_exp (c k : Nat) : ∃ n, c * (3 * (n + 1)) ^ k < 2 ^ (n + 1) := by
  refine ⟨2 ^ (2 * (k + c + 2)) - 1, ?_⟩
  have hp : 2 ^ (2 * (k + c + 2)) - 1 + 1 = 2 ^ (2 * (k + c + 2)) := Nat.sub_add_cancel Nat.one_le_two_pow
  rw [hp]
  generalize hj : k + c = j
  have h1 : c ≤ 2 ^ c := Nat.le_of_lt Nat.lt_two_pow_self
  have h2 : (3 * 2 ^ (2 * (j + 2))) ^ k ≤ 2 ^ ((2 + 2 * (j + 2)) * k) := by
    rw [Nat.pow_mul (m := 2 + 2 * (j + 2)), Nat.pow_add 2 2]
    exact Nat.pow_le_pow_left (Nat.mul_le_mul_right _ (show 3 ≤ 2 ^ 2 by decide)) k
  refine Nat.lt_of_le_of_lt (Nat.mul_le_mul h1 h2) ?_
  rw [← Nat.pow_add]
  refine Nat.pow_lt_pow_right (by decide) ?_
  have h3 := sq_lt_pow j
  have h4 : 2 ^ (2 * (j + 2)) = 4 ^ (j + 2) := by rw [Nat.pow_mul]
  rw [h4]
  refine Nat.lt_of_le_of_lt ?_ h3
  have h5 : (2 + 2 * (j + 2)) * k ≤ (2 + 2 * (j + 2)) * j := Nat.mul_le_mul_left _ (by omega)
  have h6 : (2 + 2 * (j + 2)) * j ≤ 2 * (j + 2) * (j + 2) := by
    have a1 : (2 + 2 * (j + 2)) * j = 2 * (j * j) + 6 * j := by
      have : 2 + 2 * (j + 2) = 2 * j + 6 := by omega
      rw [this, Nat.add_mul, Nat.mul_assoc]
    have a2 : 2 * (j + 2) * (j + 2) = 2 * (j * j) + 8 * j + 8 := by
      grind
    omega
  omega

/-- **C100**, size: no power of the size of the definitions (however it is multiplied) bounds the size of the values. -/
theorem C100_false (E : Ext) (seed c k : Nat) : ∃ ds vs p, outcome E (Env.builtin seed) ds = .ok vs ∧ p ∈ vs ∧
    c * (ds.map fun d => written d.2).sum ^ k < bulk p.2 := by
  obtain ⟨n, hn⟩ := poly_lt_exp c k
  obtain ⟨vs, ts, h1, h2, h3⟩ := doubling_values E seed n
  refine ⟨doubling n, vs, (longName n, .tokens ts), h1, ?_, ?_⟩
  · rw [get_eq_lookup] at h2
    exact lookup_mem' h2
  · rw [doubling_written]
    have : (List.replicate (n + 1) 3).sum = 3 * (n + 1) := by simp [Nat.mul_comm]
    rw [this]
    exact Nat.lt_of_lt_of_eq hn h3.symm

/-! ## Examples -/

/-- `y = raw(x x), z = concat(y, y), w = concat(z, z), { w, w }` -/
def doubleDemo : Toks :=
  [id' "y", eq', id' "raw", paren [id' "x", id' "x"], comma, id' "z", eq', id' "concat", paren [id' "y", comma, id' "y"], comma,
    id' "w", eq', id' "concat", paren [id' "z", comma, id' "z"], comma, brace [id' "w", comma, id' "w"]]

example : (∀ ts, count (id ts) ≤ count ts) ∧ GoodSyntax id demoWorld ∧ Scheduled demoWorld [] (.compose doubleDemo) (demoLuck 2 1) ∧
    Reads demoWorld (.compose doubleDemo) (demoParse doubleDemo) ∧ InForce (demoParse doubleDemo) [definitions (demoParse doubleDemo)] :=
  ⟨fun _ => Nat.le_refl _, demo_good, demo_scheduled _ _ (by decide +kernel), reads_of_parse (ids := fun k => k) (k := 0) rfl, .once rfl⟩

example : ∀ its, InForce (demoParse doubleDemo) its → ∀ defs ∈ its, ∀ s ∈ itemKeywords, s ∉ defs.map (·.1) := by
  intro its h defs hd
  have := iterations_of_inForce h
  have h1 : iterations (tree (demoParse doubleDemo)) = .ok [definitions (demoParse doubleDemo)] := rfl
  rw [h1] at this
  cases this
  cases List.mem_singleton.1 hd
  decide +kernel

/-- Two aliases give sixteen tokens and the comma between them. The bound is 3 · 27 + 12. -/
example : output demoWorld [] (.compose doubleDemo) (demoLuck 2 1) = .tokens (List.replicate 8 (id' "x") ++ [comma] ++ List.replicate 8 (id' "x")) ∧
    growth (definitions (demoParse doubleDemo)) = 27 ∧ count (stmtsToks (stmtsNoWhere (demoParse doubleDemo).block)) = 3 := by
  refine ⟨by decide +kernel, rfl, rfl⟩

/-- A value which is as large as the bound: `x` counts for the two tokens of its value, and `-1` is two tokens. -/
example : grown (fun n => if n = S "x" then some 2 else none) (.call 0 (S "concat") [.value 0 (.ident (S "x")), .value 0 (.litInt ⟨true, S "1", 1⟩)] none) = 5 := rfl

example : substituteIdents Ext.demo (fun _ => true) [(S "y", .tokens [id' "x", id' "x"])] [brace [id' "y", comma, id' "y"]] =
    .ok [brace [id' "x", id' "x", comma, id' "x", id' "x"]] := rfl

end Verif.Props
