import Verif.Props.Laws
/-!
# Property C80, continued: the order of the loops
-/

namespace Verif.Props
open Verif Spec

/-- The names a loop binds. -/
def loopNames : LoopAlias Str → List Str
  | .simple n => [n]
  | .tuple ts => inOrderL ts

/-- No value of a loop uses a name which a loop binds. -/
def Independent (ls : Loops) : Prop :=
  ∀ x ∈ ls, ∀ n ∈ loopNames x.1, ∀ y ∈ ls, ∀ v ∈ y.2, ∀ e ∈ exprsOfValue v, n ∉ used e

/-! ## Lists -/

theorem flatMap_both_perm {γ δ : Type} (f g : γ → List δ) (xs : List γ) :
    (xs.flatMap fun x => f x ++ g x).Perm (xs.flatMap f ++ xs.flatMap g) := by
  induction xs with
  | nil => exact .nil
  | cons x xs ih =>
    simp only [List.flatMap_cons]
    refine ((List.Perm.refl _).append ih).trans ?_
    rw [List.append_assoc, List.append_assoc]
    exact (List.Perm.refl _).append (List.perm_append_comm_assoc _ _ _)

theorem flatMap_comm_perm {γ δ ε : Type} (f : γ → δ → List ε) (xs : List γ) (ys : List δ) :
    (xs.flatMap fun x => ys.flatMap fun y => f x y).Perm (ys.flatMap fun y => xs.flatMap fun x => f x y) := by
  induction xs with
  | nil =>
    have : (ys.flatMap fun y => ([] : List γ).flatMap fun x => f x y) = [] := by simp
    rw [this]
    exact .nil
  | cons x xs ih =>
    simp only [List.flatMap_cons]
    exact ((List.Perm.refl _).append ih).trans (flatMap_both_perm _ _ _).symm

/-- Where `r` binds something, `s` binds the same, perhaps in another order. -/
def Rebinds (r s : Res (List (Str × Expr))) : Prop := ∀ a, r = .ok a → ∃ b, s = .ok b ∧ a.Perm b

/-- The second list is the first in another order, up to `Rebinds`. -/
inductive Reorders : List (Res (List (Str × Expr))) → List (Res (List (Str × Expr))) → Prop
  | nil : Reorders [] []
  | cons {r s xs ys} (h : Rebinds r s) (hx : Reorders xs ys) : Reorders (r :: xs) (s :: ys)
  | swap (r s xs) : Reorders (r :: s :: xs) (s :: r :: xs)
  | trans {xs ys zs} (h : Reorders xs ys) (h' : Reorders ys zs) : Reorders xs zs

theorem Rebinds.refl (r : Res (List (Str × Expr))) : Rebinds r r := fun a h => ⟨a, h, .refl _⟩

theorem Reorders.refl (xs : List (Res (List (Str × Expr)))) : Reorders xs xs := by
  induction xs with
  | nil => exact .nil
  | cons x xs ih => exact .cons (.refl x) ih

theorem Reorders.of_perm {xs ys : List (Res (List (Str × Expr)))} (h : xs.Perm ys) : Reorders xs ys := by
  induction h with
  | nil => exact .nil
  | cons x _ ih => exact .cons (.refl x) ih
  | swap x y xs => exact .swap y x xs
  | trans _ _ ih ih' => exact ih.trans ih'

theorem Reorders.append {xs ys us vs : List (Res (List (Str × Expr)))} (h : Reorders xs ys) (h' : Reorders us vs) :
    Reorders (xs ++ us) (ys ++ vs) := by
  induction h with
  | nil => exact h'
  | cons h _ ih => exact .cons h ih
  | swap r s xs => exact .trans (.swap r s _) (.cons (.refl _) (.cons (.refl _) (by
      clear r s
      induction xs with
      | nil => exact h'
      | cons x xs ih => exact .cons (.refl x) ih)))
  | trans h1 h2 ih ih' =>
    refine .trans ih ?_
    rename_i ys zs
    clear ih ih' h1
    have : ∀ {ys zs : List (Res (List (Str × Expr)))}, Reorders ys zs → ∀ vs, Reorders (ys ++ vs) (zs ++ vs) := by
      intro ys zs h vs
      induction h with
      | nil => exact .refl _
      | cons h _ ih => exact .cons h ih
      | swap r s xs => exact .swap r s _
      | trans _ _ ih ih' => exact .trans ih ih'
    exact this h2 vs

theorem Reorders.map {f : Res (List (Str × Expr)) → Res (List (Str × Expr))} (hf : ∀ r s, Rebinds r s → Rebinds (f r) (f s))
    {xs ys : List (Res (List (Str × Expr)))} (h : Reorders xs ys) : Reorders (xs.map f) (ys.map f) := by
  induction h with
  | nil => exact .nil
  | cons h _ ih => exact .cons (hf _ _ h) ih
  | swap r s xs => exact .swap _ _ _
  | trans _ _ ih ih' => exact .trans ih ih'

theorem Reorders.flatMap {γ : Type} {f g : γ → List (Res (List (Str × Expr)))} (h : ∀ x, Reorders (f x) (g x)) (xs : List γ) :
    Reorders (xs.flatMap f) (xs.flatMap g) := by
  induction xs with
  | nil => exact .nil
  | cons x xs ih => exact (h x).append ih

theorem Reorders.maps {γ : Type} {f g : γ → Res (List (Str × Expr))} (h : ∀ x, Rebinds (f x) (g x)) (xs : List γ) :
    Reorders (xs.map f) (xs.map g) := by
  induction xs with
  | nil => exact .nil
  | cons x xs ih => exact .cons (h x) ih

theorem both_ok {r s : Res (List (Str × Expr))} {a : List (Str × Expr)} : both r s = .ok a ↔ ∃ b c, r = .ok b ∧ s = .ok c ∧ a = b ++ c := by
  cases r <;> cases s <;> simp [both, Res.bind, eq_comm]

theorem rebinds_both (r : Res (List (Str × Expr))) {s t : Res (List (Str × Expr))} (h : Rebinds s t) : Rebinds (both r s) (both r t) := by
  intro a ha
  obtain ⟨b, c, hb, hc, rfl⟩ := both_ok.1 ha
  obtain ⟨d, hd, hp⟩ := h c hc
  exact ⟨b ++ d, both_ok.2 ⟨b, d, hb, hd, rfl⟩, (List.Perm.refl _).append hp⟩

theorem rebinds_swap (r s t : Res (List (Str × Expr))) : Rebinds (both r (both s t)) (both s (both r t)) := by
  intro a ha
  obtain ⟨b, c, hb, hc, rfl⟩ := both_ok.1 ha
  obtain ⟨d, e, hd, he, rfl⟩ := both_ok.1 hc
  exact ⟨d ++ (b ++ e), both_ok.2 ⟨d, b ++ e, hd, both_ok.2 ⟨b, e, hb, he, rfl⟩, rfl⟩, List.perm_append_comm_assoc _ _ _⟩

/-- Loops in another order bind the same, in another order. -/
theorem bound_perm {ls ls' : Loops} (h : ls.Perm ls') : Reorders (bound ls) (bound ls') := by
  induction h with
  | nil => exact .refl _
  | @cons x ls ls' _ ih =>
    rw [← List.singleton_append, ← List.singleton_append (l := ls'), bound_append, bound_append]
    exact .flatMap (fun r => .map (fun _ _ h => rebinds_both r h) ih) _
  | swap x y ls =>
    rw [← List.singleton_append, ← List.singleton_append (l := ls), ← List.singleton_append (l := y :: ls),
      ← List.singleton_append (x := y) (l := ls), bound_append, bound_append, bound_append, bound_append]
    simp only [List.map_flatMap, List.map_map]
    refine .trans (.of_perm (flatMap_comm_perm _ _ _)) ?_
    exact .flatMap (fun r => .flatMap (fun s => .maps (fun t => rebinds_swap _ _ _) _) _) _
  | trans _ _ ih ih' => exact ih.trans ih'

/-! ## What is bound in an iteration -/

/-- No value uses a name of the list. -/
def Apart (a : List (Str × Expr)) : Prop := ∀ x ∈ a, ∀ y ∈ a, x.1 ∉ used y.2

theorem Apart.noForward {a : List (Str × Expr)} (h : Apart a) : NoForward a := by
  induction a with
  | nil => trivial
  | cons x a ih =>
    refine ⟨fun y hy => ?_, ih fun u hu v hv => h u (List.mem_cons_of_mem _ hu) v (List.mem_cons_of_mem _ hv)⟩
    obtain ⟨z, hz, rfl⟩ := List.mem_map.1 hy
    exact h z (List.mem_cons_of_mem _ hz) x List.mem_cons_self

theorem Apart.perm {a b : List (Str × Expr)} (h : Apart a) (hp : a.Perm b) : Apart b :=
  fun x hx y hy => h x (hp.mem_iff.2 hx) y (hp.mem_iff.2 hy)

theorem makeSpecItems_mem {al : LoopAlias Str} {v : LoopSourceValue Expr} {items : List (Str × Expr)} (h : makeSpecItems al v = .ok items) :
    ∀ x ∈ items, x.1 ∈ loopNames al ∧ x.2 ∈ exprsOfValue v := by
  cases al with
  | simple n =>
    cases v with
    | value e => cases h; simp [loopNames, exprsOfValue]
    | tuple es => cases h
  | tuple as =>
    cases v with
    | value e => cases h
    | tuple es =>
      simp only [makeSpecItems] at h
      obtain ⟨-, -, h⟩ := Res.bind_eq_ok.1 h
      cases h
      rintro ⟨n, e⟩ hx
      obtain ⟨h1, h2⟩ := List.of_mem_zip hx
      exact ⟨(leaves_perm as).mem_iff.1 h1, (leaves_perm es).mem_iff.1 h2⟩

theorem bound_mem {ls : Loops} {items : List (Str × Expr)} (h : .ok items ∈ bound ls) :
    ∀ x ∈ items, (∃ y ∈ ls, x.1 ∈ loopNames y.1) ∧ ∃ y ∈ ls, ∃ v ∈ y.2, x.2 ∈ exprsOfValue v := by
  induction ls generalizing items with
  | nil =>
    simp only [bound, picks, List.map_nil, List.map_cons, loopSpecItems, List.mem_singleton] at h
    cases h
    simp
  | cons l ls ih =>
    rw [← List.singleton_append, bound_append] at h
    obtain ⟨r, hr, h⟩ := List.mem_flatMap.1 h
    obtain ⟨s, hs, h⟩ := List.mem_map.1 h
    obtain ⟨b, c, rfl, rfl, rfl⟩ := both_ok.1 h
    intro x hx
    rcases List.mem_append.1 hx with hx | hx
    · simp only [bound, picks, List.map_cons, List.map_nil, flatMap_one, List.mem_map] at hr
      obtain ⟨_, ⟨v, hv, rfl⟩, hr⟩ := hr
      simp only [loopSpecItems] at hr
      obtain ⟨i, hi, hr⟩ := Res.bind_eq_ok.1 hr
      cases hr
      rw [List.append_nil] at hx
      obtain ⟨h1, h2⟩ := makeSpecItems_mem hi x hx
      exact ⟨⟨l, List.mem_cons_self, h1⟩, l, List.mem_cons_self, v, hv, h2⟩
    · obtain ⟨⟨y, hy, h1⟩, z, hz, h2⟩ := ih hs x hx
      exact ⟨⟨y, List.mem_cons_of_mem _ hy, h1⟩, z, List.mem_cons_of_mem _ hz, h2⟩

theorem Independent.apart {ls : Loops} (h : Independent ls) {items : List (Str × Expr)} (hb : .ok items ∈ bound ls) : Apart items := by
  intro x hx y hy
  obtain ⟨⟨u, hu, h1⟩, -⟩ := bound_mem hb x hx
  obtain ⟨-, w, hw, v, hv, h2⟩ := bound_mem hb y hy
  exact h u hu _ h1 w hw v hv _ h2

/-- The order of what the loops bind does not matter for a copy. -/
theorem copyOf_perm {W : World} {env : Env} (henv : env.funcs = builtinFuncs) {sv : Service} {block : List Stmt} {a b defs : List (Str × Expr)}
    (ha : Apart a) (hp : a.Perm b) {c : Toks} (h : copyOf W env sv block (a ++ defs) = .ok c) : copyOf W env sv block (b ++ defs) = .ok c := by
  obtain ⟨vs, stmts, h1, h2, rfl⟩ := copyOf_ok.1 h
  obtain ⟨ws, us, h0, rfl⟩ := outcome_prefix h1
  obtain ⟨ws', h3, h4⟩ := outcome_perm (E := W.E) (env := env) (pre := []) henv _ rfl hp ha.noForward (ha.perm hp).noForward (by simpa using h0)
  simp only [List.nil_append] at h3
  obtain ⟨o, h5, h6⟩ := outcome_post (E := W.E) henv h0 h3 (post := defs) fun n _ => (h4 n).symm
  rw [h1] at h5
  cases o with
  | err e => cases h5
  | panic => cases h5
  | ok us' =>
    simp only [Res.bind_ok, Res.ok.injEq] at h5
    obtain rfl := List.append_cancel_left h5
    refine copyOf_ok.2 ⟨ws' ++ us, stmts, h6, ?_, rfl⟩
    rw [← h2]
    refine visitBlock_congr (fun n => ?_) _
    rw [Subs.get_append, Subs.get_append, h4]

/-- The copy of an iteration, if what the loops bind makes sense. -/
def CopyFor (W : World) (env : Env) (sv : Service) (block : List Stmt) (defs : List (Str × Expr)) (r : Res (List (Str × Expr))) (c : Toks) : Prop :=
  ∃ a, r = .ok a ∧ Apart a ∧ copyOf W env sv block (a ++ defs) = .ok c

theorem copies_reorder {W : World} {env : Env} (henv : env.funcs = builtinFuncs) {sv : Service} {block : List Stmt} {defs : List (Str × Expr)}
    {xs ys : List (Res (List (Str × Expr)))} (h : Reorders xs ys) : ∀ {cs : List Toks}, All2 (CopyFor W env sv block defs) xs cs →
      ∃ cs', All2 (CopyFor W env sv block defs) ys cs' ∧ cs.Perm cs' := by
  induction h with
  | nil => intro cs hc; exact ⟨cs, hc, .refl _⟩
  | cons h _ ih =>
    intro cs hc
    cases hc with
    | cons h1 h2 =>
      obtain ⟨cs', h3, h4⟩ := ih h2
      obtain ⟨a, ha, hA, hc⟩ := h1
      obtain ⟨b, hb, hp⟩ := h a ha
      exact ⟨_ :: cs', .cons ⟨b, hb, hA.perm hp, copyOf_perm henv hA hp hc⟩ h3, h4.cons _⟩
  | swap r s xs =>
    intro cs hc
    cases hc with
    | cons h1 h2 =>
      cases h2 with
      | cons h2 h3 => exact ⟨_, .cons h2 (.cons h1 h3), .swap _ _ _⟩
  | trans _ _ ih ih' =>
    intro cs hc
    obtain ⟨cs', h1, h2⟩ := ih hc
    obtain ⟨cs'', h3, h4⟩ := ih' h1
    exact ⟨cs'', h3, h2.trans h4⟩

theorem all2_copies {W : World} {env : Env} {sv : Service} {block : List Stmt} {defs : List (Str × Expr)} {xs : List (Res (List (Str × Expr)))}
    {cs : List Toks} (h : All2 (CopyFor W env sv block defs) xs cs) :
    ∃ bs, mapRes id xs = .ok bs ∧ (bs.map (· ++ defs)).map (copyOf W env sv block) = cs.map .ok := by
  induction h with
  | nil => exact ⟨[], rfl, rfl⟩
  | cons h _ ih =>
    obtain ⟨bs, h1, h2⟩ := ih
    obtain ⟨a, rfl, -, h3⟩ := h
    exact ⟨a :: bs, by simp [mapRes, h1], by simp only [List.map_cons, h2, h3]⟩

theorem copies_all2 {W : World} {env : Env} {sv : Service} {block : List Stmt} {defs : List (Str × Expr)} :
    ∀ {xs : List (Res (List (Str × Expr)))} {bs : List (List (Str × Expr))} {cs : List Toks}, (∀ a, .ok a ∈ xs → Apart a) →
    mapRes id xs = .ok bs → (bs.map (· ++ defs)).map (copyOf W env sv block) = cs.map .ok → All2 (CopyFor W env sv block defs) xs cs
  | [], bs, cs, _, h, hc => by
    cases h
    cases cs with
    | nil => exact .nil
    | cons => cases hc
  | x :: xs, bs, cs, hA, h, hc => by
    simp only [mapRes] at h
    obtain ⟨a, h1, h⟩ := Res.bind_eq_ok.1 h
    obtain ⟨bs', h2, h⟩ := Res.bind_eq_ok.1 h
    cases h
    cases cs with
    | nil => cases hc
    | cons c cs =>
      simp only [List.map_cons, List.cons.injEq] at hc
      simp only [id] at h1
      subst h1
      exact .cons ⟨a, rfl, hA a List.mem_cons_self, hc.1⟩ (copies_all2 (fun a ha => hA a (List.mem_cons_of_mem _ ha)) h2 hc.2)

/-- `cs` are the copies of the iterations `its`, in their order. -/
def Copies (W : World) (hist : List (Invocation × Luck)) (inv : Invocation) (l : Luck) (a : PAst) (its : List (List (Str × Expr))) (cs : List Toks) :
    Prop :=
  cs.length = its.length ∧ ∀ (i : Nat) (defs : List (Str × Expr)), its[i]? = some defs →
    ∃ c, cs[i]? = some c ∧ IsCopy W (l.ids 0) (serviceFor (macroPrefix (firstOn hist inv)) (withSemicolons a.spec)) a.block defs c

theorem copies_of_map {W : World} {hist : List (Invocation × Luck)} {inv : Invocation} {l : Luck} {a : PAst} {its : List (List (Str × Expr))}
    {cs : List Toks} (h1 : its.map (copyOf W (Env.builtin (l.ids 0)) (serviceFor (macroPrefix (firstOn hist inv)) (withSemicolons a.spec)) a.block) =
      cs.map .ok) : Copies W hist inv l a its cs := by
  have hlen := congrArg List.length h1
  simp only [List.length_map] at hlen
  refine ⟨hlen.symm, fun i defs hd => ?_⟩
  have h2 := congrArg (·[i]?) h1
  simp only [List.getElem?_map, hd, Option.map_some] at h2
  cases hc : cs[i]? with
  | none => rw [hc] at h2; cases h2
  | some c =>
    rw [hc] at h2
    simp only [Option.map_some, Option.some.injEq] at h2
    exact ⟨c, rfl, isCopy_iff.1 h2⟩

/-- **C80**: loops whose values do not use the names bound by loops can be put in any order: the copies are the same, in another order. -/
theorem C80_order {W : World} {hist hist' : List (Invocation × Luck)} {inv inv' : Invocation} {l l' : Luck} {a a' : PAst}
    (hs : Scheduled W hist inv l) (ha : Reads W inv a) (hs' : Scheduled W hist' inv' l') (ha' : Reads W inv' a')
    (hal : SameSetting hist inv l a hist' inv' l' a') (hb : a'.block = a.block) (hd : definitions a' = definitions a) {ls ls' : Loops}
    (hl : (tree a).loops = some ls) (hl' : (tree a').loops = some ls') (hp : ls.Perm ls') (hi : Independent ls) {ts : Toks}
    (h : output W hist inv l = .tokens ts) :
    ∃ its its' cs cs', InForce a its ∧ InForce a' its' ∧ Copies W hist inv l a its cs ∧ Copies W hist inv l a its' cs' ∧
      ts = cs.flatten ∧ cs.Perm cs' ∧ output W hist' inv' l' = .tokens cs'.flatten := by
  by_cases hne : ls = []
  · subst hne
    have he := hp.nil_eq
    subst he
    have hii : iterations (tree a') = iterations (tree a) := by
      rw [iterations_eq, iterations_eq, hd]
      unfold loopBindings
      rw [hl, hl']
    have ho := output_of_bindings hs ha hs' ha' hal hb hii
    rw [output_reads hs ha, ofRes_tokens, expansion_ok] at h
    obtain ⟨its, h1, h2⟩ := h
    obtain ⟨cs, h3, rfl⟩ := joinAll_ok h2
    refine ⟨its, its, cs, cs, inForce_of_iterations h1, inForce_of_iterations (hii.trans h1), copies_of_map h3, copies_of_map h3, rfl, .refl _, ?_⟩
    rw [ho, output_reads hs ha, ofRes_tokens, expansion_ok]
    exact ⟨its, h1, h2⟩
  · have hne' : ls' ≠ [] := fun h0 => hne (by subst h0; exact hp.eq_nil)
    rw [setting_output hs' ha' hal]
    rw [output_reads hs ha, ofRes_tokens, expansion_ok] at h
    obtain ⟨its, h1, h2⟩ := h
    obtain ⟨cs, h3, rfl⟩ := joinAll_ok h2
    obtain ⟨bs, h4, rfl⟩ := iterations_ok.1 h1
    rw [bindings_bound hl hne] at h4
    have h5 := copies_all2 (fun a ha => hi.apart ha) h4 h3
    obtain ⟨cs', h6, h7⟩ := copies_reorder rfl (bound_perm hp) h5
    obtain ⟨bs', h8, h9⟩ := all2_copies h6
    have h10 : iterations (tree a') = .ok (bs'.map (· ++ definitions a)) :=
      iterations_ok.2 ⟨bs', by rw [bindings_bound hl' hne', h8], by rw [hd]⟩
    have hb' : (tree a').block = (tree a).block := hb
    refine ⟨_, _, cs, cs', inForce_of_iterations h1, inForce_of_iterations h10, copies_of_map h3, copies_of_map h9, rfl, h7, ?_⟩
    rw [ofRes_tokens, expansion_ok, hb']
    exact ⟨_, h10, by rw [h9, joinAll_map_ok]⟩

theorem Independent.perm {ls ls' : Loops} (h : Independent ls) (hp : ls.Perm ls') : Independent ls' :=
  fun x hx n hn y hy => h x (hp.mem_iff.2 hx) n hn y (hp.mem_iff.2 hy)

/-- **C80**: there is code for one order of such loops exactly if there is for every other. -/
theorem C80_order_code {W : World} {hist hist' : List (Invocation × Luck)} {inv inv' : Invocation} {l l' : Luck} {a a' : PAst}
    (hs : Scheduled W hist inv l) (ha : Reads W inv a) (hs' : Scheduled W hist' inv' l') (ha' : Reads W inv' a')
    (hal : SameSetting hist inv l a hist' inv' l' a') (hb : a'.block = a.block) (hd : definitions a' = definitions a) {ls ls' : Loops}
    (hl : (tree a).loops = some ls) (hl' : (tree a').loops = some ls') (hp : ls.Perm ls') (hi : Independent ls) :
    (∃ ts, output W hist inv l = .tokens ts) ↔ ∃ ts, output W hist' inv' l' = .tokens ts := by
  constructor
  · rintro ⟨ts, h⟩
    obtain ⟨-, -, -, cs', -, -, -, -, -, -, h'⟩ := C80_order hs ha hs' ha' hal hb hd hl hl' hp hi h
    exact ⟨_, h'⟩
  · rintro ⟨ts, h⟩
    have hal' : SameSetting hist' inv' l' a' hist inv l a :=
      ⟨hal.seed.imp Eq.symm And.symm, hal.semicolons.symm, hal.pre.imp (fun h => hal.semicolons ▸ h) Eq.symm⟩
    obtain ⟨-, -, -, cs', -, -, -, -, -, -, h'⟩ := C80_order hs' ha' hs ha hal' hb.symm hd.symm hl' hl hp.symm (hi.perm hp) h
    exact ⟨_, h'⟩

/-! ## The hypotheses are met -/

/-- `for z in [c, d] for x in [a, b] y = concat(x, z), { struct y {} }` -/
def demoSwapped : Toks := [id' "for", id' "z", id' "in", listOf [id' "c", comma, id' "d"], id' "for", id' "x", id' "in",
  listOf [id' "a", comma, id' "b"]] ++ demoTail

example : ∃ ls ls', Reads demoWorld (.compose demoNested) (demoParse demoNested) ∧ Reads demoWorld (.compose demoSwapped) (demoParse demoSwapped) ∧
    (tree (demoParse demoNested)).loops = some ls ∧ (tree (demoParse demoSwapped)).loops = some ls' ∧ ls.Perm ls' ∧ Independent ls ∧
    definitions (demoParse demoSwapped) = definitions (demoParse demoNested) ∧ (demoParse demoSwapped).block = (demoParse demoNested).block := by
  refine ⟨_, _, reads_of_parse (ids := fun k => k) (k := 0) rfl, reads_of_parse (ids := fun k => k) (k := 0) rfl, rfl, rfl,
    .swap _ _ _, ?_, rfl, rfl⟩
  unfold Independent
  decide +kernel

example : output demoWorld [] (.compose demoNested) (demoLuck 2 1) = .tokens [id' "struct", id' "ac", brace [], id' "struct", id' "ad", brace [],
      id' "struct", id' "bc", brace [], id' "struct", id' "bd", brace []] ∧
    output demoWorld [] (.compose demoSwapped) (demoLuck 2 1) = .tokens [id' "struct", id' "ac", brace [], id' "struct", id' "bc", brace [],
      id' "struct", id' "ad", brace [], id' "struct", id' "bd", brace []] := by decide +kernel

/-- If a value uses the name of a loop it is not so: `for x in [a, b] for z in [x]` and `for z in [x] for x in [a, b]`. -/
example : output demoWorld [] (.compose ([id' "for", id' "x", id' "in", listOf [id' "a", comma, id' "b"], id' "for", id' "z", id' "in",
      listOf [id' "x"]] ++ demoTail)) (demoLuck 2 1) = .tokens [id' "struct", id' "aa", brace [], id' "struct", id' "bb", brace []] ∧
    output demoWorld [] (.compose ([id' "for", id' "z", id' "in", listOf [id' "x"], id' "for", id' "x", id' "in",
      listOf [id' "a", comma, id' "b"]] ++ demoTail)) (demoLuck 2 1) = .tokens [id' "struct", id' "ax", brace [], id' "struct", id' "bx", brace []] := by
  decide +kernel

end Verif.Props
