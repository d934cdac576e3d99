import Verif.Props.Pasted
import Verif.Proofs.Independence
/-!
# Generated code in the code of another invocation (C106)

The code which one invocation generates becomes the code of a second one: the second replaces what is left of its own aliases. Compared with one invocation
that has the definitions of both. In difference to C93 the values need not be names, but the second definitions do not use the first aliases.
-/

namespace Verif.Props
open Verif Spec

/-- A further replacement, of the aliases of `vs2`, finds nothing to replace in the values `vs`: none of these aliases stands in them, the strings in them are
spelled plainly and have no percents, and neither do the texts that stand for them in strings. -/
structure Inert (E : Ext) (vs vs2 : Subs) : Prop where
  names : ∀ n v, List.lookup n vs = some v → ∀ m, (List.lookup m vs2).isSome → ¬ mentions m v.toTokens
  strings : ∀ n v, List.lookup n vs = some v → strLits (fun r w => r = E.strRepr w ∧ '%' ∉ w) v.toTokens
  texts : ∀ n v, List.lookup n vs = some v → '%' ∉ stringForm E v

mutual
theorem inert_tok {look : Str → Option Toks} {str : Str → Lit} : ∀ t : Tok, (∀ m, (look m).isSome → ¬ mentionsTok m t) →
    strLitsTok (fun r w => str w = .str r w) t → substTok look str t = [t]
  | .ident n, h, _ => by
    cases hl : look n with
    | none => simp [substTok, hl]
    | some us => exact absurd rfl (h n (by rw [hl]; rfl))
  | .lit (.str r v), _, h => by simp only [strLitsTok] at h; simp [substTok, h]
  | .lit (.int _ _), _, _ => by simp [substTok]
  | .lit (.other _), _, _ => by simp [substTok]
  | .punct _ _, _, _ => by simp [substTok]
  | .group d ts, h, hs => by
    simp only [strLitsTok] at hs
    simp only [mentionsTok] at h
    simp [substTok, inert_toks ts h hs]
theorem inert_toks {look : Str → Option Toks} {str : Str → Lit} : ∀ ts : Toks, (∀ m, (look m).isSome → ¬ mentions m ts) →
    strLits (fun r w => str w = .str r w) ts → substAll look str ts = ts
  | [], _, _ => by simp [substAll]
  | t :: ts, h, hs => by
    simp only [strLits] at hs
    simp only [mentions, not_or] at h
    simp [substAll, inert_tok t (fun m hm => (h m hm).1) hs.1, inert_toks ts (fun m hm => (h m hm).2) hs.2]
end

mutual
theorem again_tok {look1 look2 look12 : Str → Option Toks} {str1 str2 str12 : Str → Lit} {P : Str → Prop}
    (hl : ∀ n, look12 n = (look1 n).or (look2 n)) (hi : ∀ n us, look1 n = some us → substAll look2 str2 us = us)
    (hs : ∀ v, P v → substTok look2 str2 (.lit (str1 v)) = [.lit (str12 v)]) : ∀ t : Tok, strLitsTok (fun _ v => P v) t →
    substAll look2 str2 (substTok look1 str1 t) = substTok look12 str12 t
  | .ident n, _ => by
    simp only [substTok, hl]
    cases h1 : look1 n with
    | some us => simpa using hi n us h1
    | none => simp [substAll, substTok]
  | .lit (.str r v), h => by
    simp only [strLitsTok] at h
    have h' := hs v h
    rw [substTok, substTok, substAll, substAll, List.append_nil]
    exact h'
  | .lit (.int _ _), _ => by simp [substTok, substAll]
  | .lit (.other _), _ => by simp [substTok, substAll]
  | .punct _ _, _ => by simp [substTok, substAll]
  | .group d ts, h => by
    simp only [strLitsTok] at h
    simp [substTok, substAll, again_toks hl hi hs ts h]
theorem again_toks {look1 look2 look12 : Str → Option Toks} {str1 str2 str12 : Str → Lit} {P : Str → Prop}
    (hl : ∀ n, look12 n = (look1 n).or (look2 n)) (hi : ∀ n us, look1 n = some us → substAll look2 str2 us = us)
    (hs : ∀ v, P v → substTok look2 str2 (.lit (str1 v)) = [.lit (str12 v)]) : ∀ ts : Toks, strLits (fun _ v => P v) ts →
    substAll look2 str2 (substAll look1 str1 ts) = substAll look12 str12 ts
  | [], _ => by simp [substAll]
  | t :: ts, h => by
    simp only [strLits] at h
    rw [substAll, substAll_append, again_tok hl hi hs t h.1, again_toks hl hi hs ts h.2, ← substAll]
end

mutual
theorem strLitsTok_mono {P Q : Str → Str → Prop} (h : ∀ r v, P r v → Q r v) : ∀ t : Tok, strLitsTok P t → strLitsTok Q t
  | .ident _, _ => by simp [strLitsTok]
  | .lit (.str r v), hp => by simp only [strLitsTok] at hp ⊢; exact h r v hp
  | .lit (.int _ _), _ => by simp [strLitsTok]
  | .lit (.other _), _ => by simp [strLitsTok]
  | .punct _ _, _ => by simp [strLitsTok]
  | .group _ ts, hp => by simp only [strLitsTok] at hp ⊢; exact strLits_mono h ts hp
theorem strLits_mono {P Q : Str → Str → Prop} (h : ∀ r v, P r v → Q r v) : ∀ ts : Toks, strLits P ts → strLits Q ts
  | [], _ => by simp [strLits]
  | t :: ts, hp => by simp only [strLits] at hp ⊢; exact ⟨strLitsTok_mono h t hp.1, strLits_mono h ts hp.2⟩
end

/-- **C106**, the code: replacing the aliases of `vs` and, in what comes out, those of `vs2`, is replacing both at once, if the second replacement finds nothing
in the first values and no two percents are next to each other in the strings of the code. -/
theorem C106_code {E : Ext} {vs vs2 : Subs} {fmt fmt2 fmt12 : Str → Str} (hi : Inert E vs vs2) (hf : FormatsAll E vs fmt) (hf2 : FormatsAll E vs2 fmt2)
    (hf12 : FormatsAll E (vs ++ vs2) fmt12) {body : Toks} (hb : strLits (fun _ v => ¬ HasDoublePercent v) body) :
    substAll (valueToks vs2) (litWith E fmt2) (substAll (valueToks vs) (litWith E fmt) body) =
      substAll (valueToks (vs ++ vs2)) (litWith E fmt12) body := by
  refine again_toks (P := fun v => ¬ HasDoublePercent v) (fun n => ?_) (fun n us h => ?_) (fun v hd => ?_) body hb
  · simp only [valueToks, codeOf_eq, lookup_append]
    cases List.lookup n vs <;> rfl
  · simp only [valueToks, codeOf_eq, Option.map_eq_some_iff] at h
    obtain ⟨v, hv, rfl⟩ := h
    refine inert_toks _ (fun m hm => hi.names n v hv m (by simpa [valueToks, codeOf_eq] using hm)) (strLits_mono ?_ _ (hi.strings n v hv))
    rintro r w ⟨rfl, hw⟩
    have : fmt2 w = w := (formats_sound (hf2 w)).symm.trans (formatString_plain w hw)
    simp [litWith, this]
  · obtain ⟨o1, h1, h2, -⟩ := formats_twice (C := E.toCharClass) (look1 := valueText E vs) (look2 := valueText E vs2)
      (fun n => by simp only [valueText, lookup_append]; cases List.lookup n vs <;> rfl) (fun n w hw => by
        simp only [valueText, Option.map_eq_some_iff] at hw
        obtain ⟨k, hk, rfl⟩ := hw
        exact hi.texts n k hk) (hf12 v) hd
    have e1 : fmt v = o1 := (formats_sound (hf v)).symm.trans (formats_sound h1)
    have e2 := (formats_sound (hf2 o1)).symm.trans (formats_sound h2)
    simp only [substTok, litWith, e1, e2]

/-- **C106**, the same once more: replacing the aliases again changes nothing. -/
theorem C106_code_again {E : Ext} {vs : Subs} {fmt : Str → Str} (hi : Inert E vs vs) (hf : FormatsAll E vs fmt) {body : Toks}
    (hb : strLits (fun _ v => ¬ HasDoublePercent v) body) :
    substAll (valueToks vs) (litWith E fmt) (substAll (valueToks vs) (litWith E fmt) body) = substAll (valueToks vs) (litWith E fmt) body := by
  have hl : ∀ n, List.lookup n (vs ++ vs) = List.lookup n vs := fun n => by rw [lookup_append]; cases List.lookup n vs <;> rfl
  have h12 : FormatsAll E (vs ++ vs) fmt := fun s => by
    have : valueText E (vs ++ vs) = valueText E vs := by funext n; simp only [valueText, hl]
    rw [this]; exact hf s
  rw [C106_code hi hf hf h12 hb]
  congr 1
  funext n
  simp only [valueToks, codeOf_eq, hl]

/-- **C106**, the code exactly: the two replacements are one, for all code with strings of a certain kind, if and only if the second changes none of the first values
and formatting such a string twice is formatting it once with both. -/
theorem C106_exact {E : Ext} {vs vs2 : Subs} {fmt fmt2 fmt12 : Str → Str} {P : Str → Prop} :
    (∀ body, strLits (fun _ v => P v) body → substAll (valueToks vs2) (litWith E fmt2) (substAll (valueToks vs) (litWith E fmt) body) =
        substAll (valueToks (vs ++ vs2)) (litWith E fmt12) body) ↔
      (∀ n v, List.lookup n vs = some v → substAll (valueToks vs2) (litWith E fmt2) v.toTokens = v.toTokens) ∧
        ∀ s, P s → fmt2 (fmt s) = fmt12 s := by
  constructor
  · intro h
    refine ⟨fun n v hv => ?_, fun s hs => ?_⟩
    · have := h [.ident n] (by simp [strLits, strLitsTok])
      simpa [substAll, substTok, valueToks, codeOf_eq, lookup_append, hv] using this
    · have := h [.lit (.str s s)] (by simpa [strLits, strLitsTok] using hs)
      simp only [substAll, substTok, litWith, List.append_nil, List.cons.injEq, and_true, Tok.lit.injEq, Lit.str.injEq] at this
      exact this.2
  · rintro ⟨h1, h2⟩ body hb
    refine again_toks (P := P) (fun n => ?_) (fun n us h => ?_) (fun v hp => ?_) body hb
    · simp only [valueToks, codeOf_eq, lookup_append]
      cases List.lookup n vs <;> rfl
    · simp only [valueToks, codeOf_eq, Option.map_eq_some_iff] at h
      obtain ⟨v, hv, rfl⟩ := h
      exact h1 n v hv
    · simp only [substTok, litWith, h2 v hp]

/-! ## Whole invocations -/

/-- The code generated in one iteration, whose definitions `d1` have the values `vs`, becomes the code `body2` of the invocation `inv2`, read as `a2`, without loops
and semicolons, which expands to `t`. The second replacement finds nothing in the first values. The seed is that of `l`, or `NoHash a`. -/
structure ExpandsAfter (W : World) (l : Luck) (a : PAst) (d1 d2 : List (Str × Expr)) (body : Toks) (vs : Subs) (fmt : Str → Str) (inv2 : Invocation)
    (a2 : PAst) (body2 : Toks) (hist2 : List (Invocation × Luck)) (l2 : Luck) (t : Toks) : Prop where
  values : outcome W.E (Env.builtin (l.ids 0)) d1 = .ok vs
  formats : FormatsAll W.E vs fmt
  generated : unspaced body2 = unspaced (substAll (valueToks vs) (litWith W.E fmt) body)
  reads : Reads W inv2 a2
  code : Code inv2 body2
  definitions : definitions a2 = d2
  noLoops : (tree a2).loops = none
  noSemicolons : withSemicolons a2.spec = false
  noWhere : stmtsNoWhere a2.block = a2.block
  scheduled : Scheduled W hist2 inv2 l2
  seed : l.ids 0 = l2.ids 0 ∨ NoHash a
  keywords : ∀ s ∈ itemKeywords, s ∉ (d1 ++ d2).map (·.1)
  inert : ∀ vs2, outcome W.E (Env.builtin (l2.ids 0)) d2 = .ok vs2 → Inert W.E vs vs2
  output : output W hist2 inv2 l2 = .tokens t

theorem after_copy {W : World} (hW : TextSyntax W) {l : Luck} {a : PAst} {d1 d2 : List (Str × Expr)} {body : Toks} {vs : Subs} {fmt : Str → Str}
    {inv2 : Invocation} {a2 : PAst} {body2 : Toks} {hist2 : List (Invocation × Luck)} {l2 : Luck} {t : Toks}
    (h : ExpandsAfter W l a d1 d2 body vs fmt inv2 a2 body2 hist2 l2 t) (hb : strLits (fun _ v => ¬ HasDoublePercent v) body) :
    ∃ vs2, outcome W.E (Env.builtin (l2.ids 0)) d2 = .ok vs2 ∧ ∀ fmt12, FormatsAll W.E (vs ++ vs2) fmt12 →
      unspaced t = unspaced (substAll (valueToks (vs ++ vs2)) (litWith W.E fmt12) body) := by
  obtain ⟨vs2, h1, h2⟩ := once_meaning hW h.scheduled h.reads h.noLoops h.noSemicolons h.noWhere h.code (by
    rw [h.definitions]
    exact fun s hs hm => h.keywords s hs (by simp only [List.map_append, List.mem_append]; exact .inr hm)) h.output
  rw [h.definitions] at h1
  refine ⟨vs2, h1, fun fmt12 hf12 => ?_⟩
  obtain ⟨fmt2, hf2⟩ := formatting_exists W.E vs2
  rw [h2 fmt2 hf2, ← unspaced_substAll, h.generated, unspaced_substAll, C106_code (h.inert vs2 h1) h.formats hf2 hf12 hb]

/-- **C106** (partial), the invocations: if the code that an invocation generates in its iterations is expanded by a second one, with definitions that do not
use or define the first aliases, this is what one invocation with the loops of the first and the definitions of both expands to, up to spacing, if all succeed
and no strings or names in the first values have a meaning for the second. For the rest it is false (`C106_false`). -/
theorem C106_partial {W : World} (hW : TextSyntax W) {flat : Invocation} {a : PAst} {body : Toks} {d2 : List (Str × Expr)}
    (ha : Reads W flat a) (hc : Code flat body) (hn : withSemicolons a.spec = false) (hw : stmtsNoWhere a.block = a.block)
    (hb : strLits (fun _ v => ¬ HasDoublePercent v) body)
    {its : List (List (Str × Expr))} (hi : InForce a (its.map (· ++ d2))) (hu : ∀ d1 ∈ its, ∀ n, n ∈ usedIn d2 ∨ n ∈ d2.map (·.1) → n ∉ d1.map (·.1))
    {hist : List (Invocation × Luck)} {l : Luck} (hs : Scheduled W hist flat l) {outs : List Toks} (hlen : outs.length = its.length)
    (hin : ∀ (i : Nat) d1 t, its[i]? = some d1 → outs[i]? = some t → ∃ vs fmt inv2 a2 body2 hist2 l2,
      ExpandsAfter W l a d1 d2 body vs fmt inv2 a2 body2 hist2 l2 t)
    {ts : Toks} (h : output W hist flat l = .tokens ts) : unspaced outs.flatten = unspaced ts := by
  have uniq : ∀ js, InForce a js → js = its.map (· ++ d2) := fun js hj =>
    Res.ok.inj ((iterations_of_inForce hj).symm.trans (iterations_of_inForce hi))
  obtain ⟨js, cs, h1, rfl, h3, h4⟩ := C66_text hW hs ha hn hw hc (fun js hj d hd s hs => by
    rw [uniq js hj] at hd
    obtain ⟨d1, hd1, rfl⟩ := List.mem_map.1 hd
    obtain ⟨i, hlt, rfl⟩ := List.mem_iff_getElem.1 hd1
    obtain ⟨vs, fmt, inv2, a2, body2, hist2, l2, hx⟩ := hin i _ _ (List.getElem?_eq_getElem hlt) (List.getElem?_eq_getElem (by omega))
    exact hx.keywords s hs) h
  obtain rfl := uniq js h1
  rw [List.length_map] at h3
  rw [unspaced_coarse.flatten, unspaced_coarse.flatten]
  congr 1
  apply List.ext_getElem?
  intro i
  rw [List.getElem?_map, List.getElem?_map]
  by_cases hlt : i < its.length
  · have e1 := List.getElem?_eq_getElem hlt
    have e2 : outs[i]? = some _ := List.getElem?_eq_getElem (by omega)
    obtain ⟨vs, fmt, inv2, a2, body2, hist2, l2, hx⟩ := hin i _ _ e1 e2
    have hmem := List.getElem_mem hlt
    have e3 : (its.map (· ++ d2))[i]? = some (its[i] ++ d2) := by rw [List.getElem?_map, e1]; rfl
    obtain ⟨vs12, o1, c1⟩ := h4 i _ e3
    obtain ⟨vs2, o2, c2⟩ := after_copy hW hx hb
    have o2 : outcome W.E (Env.builtin (l.ids 0)) d2 = .ok vs2 := by
      rcases hx.seed with e | e
      · rw [e]; exact o2
      · rw [← o2]
        exact outcome_seed fun d hd => e _ (iterations_mem (iterations_of_inForce hi) _ (List.mem_map_of_mem hmem) d (by simp [hd]))
    obtain ⟨o, p1, p2⟩ := outcome_post (E := W.E) (env := Env.builtin (l.ids 0)) rfl (post := d2) hx.values (pre' := []) (vs' := []) rfl
      (fun n hn => by
        rw [get_eq_lookup, lookup_not_mem]
        · rfl
        · rw [(denote_names (outcome_ok.1 hx.values).2).1]
          exact hu _ hmem n hn)
    rw [List.nil_append, o2] at p2
    obtain ⟨ws, rfl, p3⟩ := Res.bind_eq_ok.1 p2.symm
    cases p3
    rw [o1] at p1
    cases p1
    obtain ⟨fmt12, hf12⟩ := formatting_exists W.E (vs ++ ws)
    obtain ⟨c, c3, c4⟩ := c1 fmt12 hf12
    rw [e2, c3, Option.map_some, Option.map_some, c4]
    rw [c2 fmt12 hf12, List.nil_append]
  · rw [List.getElem?_eq_none (by omega), List.getElem?_eq_none (by omega)]

/-- **C106**, the same once more: an invocation without loops whose code is what the same definitions have generated changes nothing, up to spacing. -/
theorem C106_again {W : World} (hW : TextSyntax W) {inv inv2 : Invocation} {a a2 : PAst} {body ts ts2 : Toks} {hist hist2 : List (Invocation × Luck)}
    {l l2 : Luck} (hs : Scheduled W hist inv l) (hs2 : Scheduled W hist2 inv2 l2) (ha : Reads W inv a) (ha2 : Reads W inv2 a2)
    (hl : (tree a).loops = none) (hl2 : (tree a2).loops = none) (hd : definitions a2 = definitions a)
    (hn : withSemicolons a.spec = false) (hn2 : withSemicolons a2.spec = false) (hw : stmtsNoWhere a.block = a.block) (hw2 : stmtsNoWhere a2.block = a2.block)
    (hc : Code inv body) (hk : ∀ s ∈ itemKeywords, s ∉ (definitions a).map (·.1)) (hb : strLits (fun _ v => ¬ HasDoublePercent v) body)
    (hseed : l.ids 0 = l2.ids 0 ∨ NoHash a) (hi : ∀ vs, outcome W.E (Env.builtin (l.ids 0)) (definitions a) = .ok vs → Inert W.E vs vs)
    (h : output W hist inv l = .tokens ts) (hc2 : Code inv2 ts) (h2 : output W hist2 inv2 l2 = .tokens ts2) : unspaced ts2 = unspaced ts := by
  obtain ⟨vs, o1, c1⟩ := once_meaning hW hs ha hl hn hw hc hk h
  obtain ⟨vs2, o2, c2⟩ := once_meaning hW hs2 ha2 hl2 hn2 hw2 hc2 (by rw [hd]; exact hk) h2
  obtain ⟨fmt, hf⟩ := formatting_exists W.E vs
  have e : outcome W.E (Env.builtin (l.ids 0)) (definitions a) = outcome W.E (Env.builtin (l2.ids 0)) (definitions a) := by
    rcases hseed with e | e
    · rw [e]
    · exact outcome_seed fun d hd => e _ (iterations_mem (iterations_of_inForce (.once hl)) _ (by simp) d hd)
  rw [hd, ← e, o1] at o2
  cases o2
  rw [c2 fmt hf, ← unspaced_substAll, c1 fmt hf, unspaced_substAll, C106_code_again (hi _ o1) hf hb]

/-! ## Examples -/

/-- `x = "s", { code }` -/
def firstOf (code : Toks) : Toks := [id' "x", eq', .lit (.str (Ext.demo.strRepr (S "s")) (S "s")), comma, brace code]

/-- `y = b, { code }` -/
def secondOf (code : Toks) : Toks := [id' "y", eq', id' "b", comma, brace code]

/-- `x = "s", y = b, { code }` -/
def bothOf (code : Toks) : Toks := [id' "x", eq', .lit (.str (Ext.demo.strRepr (S "s")) (S "s")), comma] ++ secondOf code

/-- `"s"` -/
def demoS : Toks := [.lit (.str (Ext.demo.strRepr (S "s")) (S "s"))]

/-- What `firstOf demoTold` generates. -/
def demoFirst : Toks := demoS ++ [id' "y", .lit (.str (Ext.demo.strRepr (S "s-%y%")) (S "s-%y%"))]

/-- What `secondOf demoFirst` generates. -/
def demoSecond : Toks := demoS ++ [id' "b", .lit (.str (Ext.demo.strRepr (S "s-b")) (S "s-b"))]

def demoStringValues : Subs := [(S "x", .litStr (Ext.demo.strRepr (S "s")) (S "s"))]

theorem demo_string_cases {n : Str} {v : VKind} (h : List.lookup n demoStringValues = some v) : v = .litStr (Ext.demo.strRepr (S "s")) (S "s") := by
  simp only [demoStringValues, List.lookup_cons, List.lookup_nil] at h
  split at h
  · cases h; rfl
  · cases h

theorem demo_inert (vs2 : Subs) : Inert demoWorld.E demoStringValues vs2 where
  names n v h m _ := by rw [demo_string_cases h]; simp [VKind.toTokens, mentions, mentionsTok]
  strings n v h := by
    rw [demo_string_cases h]
    simp only [VKind.toTokens, strLits, strLitsTok]
    exact ⟨⟨rfl, by decide⟩, trivial⟩
  texts n v h := by rw [demo_string_cases h]; decide

example : output demoWorld [] (.compose (firstOf demoTold)) (demoLuck 2 1) = .tokens demoFirst ∧
    output demoWorld [] (.compose (secondOf demoFirst)) (demoLuck 2 1) = .tokens demoSecond ∧
    output demoWorld [] (.compose (bothOf demoTold)) (demoLuck 2 1) = .tokens demoSecond ∧
    output demoWorld [] (.compose (firstOf demoFirst)) (demoLuck 2 1) = .tokens demoFirst := by decide +kernel

example : ExpandsAfter demoWorld (demoLuck 2 1) (demoParse (bothOf demoTold)) (definitions (demoParse (firstOf demoTold)))
    (definitions (demoParse (secondOf demoFirst))) demoTold demoStringValues (fmtStr demoWorld.E demoStringValues) (.compose (secondOf demoFirst))
    (demoParse (secondOf demoFirst)) demoFirst [] (demoLuck 2 1) demoSecond where
  values := rfl
  formats := formatsAll_fmtStr
  generated := rfl
  reads := reads_of_parse (ids := fun k => k) (k := 0) rfl
  code := .compose ((secondOf demoFirst).take 4) _ rfl
  definitions := rfl
  noLoops := rfl
  noSemicolons := rfl
  noWhere := rfl
  scheduled := demo_scheduled _ _ (by decide +kernel)
  seed := .inl rfl
  keywords := by decide +kernel
  inert vs2 _ := demo_inert vs2
  output := by decide +kernel

example : Reads demoWorld (.compose (bothOf demoTold)) (demoParse (bothOf demoTold)) ∧ Code (.compose (bothOf demoTold)) demoTold ∧
    InForce (demoParse (bothOf demoTold)) ([definitions (demoParse (firstOf demoTold))].map (· ++ definitions (demoParse (secondOf demoFirst)))) ∧
    (∀ n, n ∈ usedIn (definitions (demoParse (secondOf demoFirst))) ∨ n ∈ (definitions (demoParse (secondOf demoFirst))).map (·.1) →
      n ∉ (definitions (demoParse (firstOf demoTold))).map (·.1)) := by
  refine ⟨reads_of_parse (ids := fun k => k) (k := 0) rfl, .compose ((bothOf demoTold).take 8) _ rfl, .once rfl, fun n hn => ?_⟩
  have h1 : usedIn (definitions (demoParse (secondOf demoFirst))) = [S "b"] := by decide +kernel
  have h2 : (definitions (demoParse (secondOf demoFirst))).map (·.1) = [S "y"] := by decide +kernel
  have h3 : (definitions (demoParse (firstOf demoTold))).map (·.1) = [S "x"] := by decide +kernel
  rw [h1, h2] at hn
  rw [h3]
  rcases hn with hn | hn <;> simp only [List.mem_singleton] at hn <;> subst hn <;> decide

example : Reads demoWorld (.compose (firstOf demoTold)) (demoParse (firstOf demoTold)) ∧ Code (.compose (firstOf demoTold)) demoTold ∧
    Reads demoWorld (.compose (firstOf demoFirst)) (demoParse (firstOf demoFirst)) ∧ Code (.compose (firstOf demoFirst)) demoFirst ∧
    definitions (demoParse (firstOf demoFirst)) = definitions (demoParse (firstOf demoTold)) ∧
    outcome demoWorld.E (Env.builtin ((demoLuck 2 1).ids 0)) (definitions (demoParse (firstOf demoTold))) = .ok demoStringValues ∧
    strLits (fun _ v => ¬ HasDoublePercent v) demoTold :=
  ⟨reads_of_parse (ids := fun k => k) (k := 0) rfl, .compose ((firstOf demoTold).take 4) _ rfl, reads_of_parse (ids := fun k => k) (k := 0) rfl,
    .compose ((firstOf demoFirst).take 4) _ rfl, rfl, rfl, demo_nests.percents⟩

/-- Both sides of `C106_exact` hold for the values of the example and strings without percents next to each other; and for a value that writes the alias of the
second, both do not. -/
example (vs2 : Subs) (n v : _) (h : List.lookup n demoStringValues = some v) :
    substAll (valueToks vs2) (litWith demoWorld.E (fmtStr demoWorld.E vs2)) v.toTokens = v.toTokens :=
  (C106_exact (P := fun s => ¬ HasDoublePercent s) (fmt := fmtStr demoWorld.E demoStringValues) (fmt12 := fmtStr demoWorld.E (demoStringValues ++ vs2))).1
    (fun _ hb => C106_code (demo_inert vs2) formatsAll_fmtStr formatsAll_fmtStr formatsAll_fmtStr hb) |>.1 n v h

example : substAll (valueToks [(S "y", .ident (S "b"))]) (litWith demoWorld.E id) (VKind.ident (S "y")).toTokens ≠ (VKind.ident (S "y")).toTokens := by
  decide +kernel

/-- The code which the first invocation generates, expanded by the second. -/
def thenExpand (first : Toks) (second : Toks → Toks) : Option Output :=
  match output demoWorld [] (.compose first) (demoLuck 2 1) with
  | .tokens ts => some (output demoWorld [] (.compose (second ts)) (demoLuck 2 1))
  | _ => none

/-- **C106** is false in general. If the first invocation writes the alias `y` of the second (`x = y`), or a placeholder with it (`x = "%y%"`), the second replaces
it; one invocation with both definitions does not. `"%%y%%"` comes out of the first as `"%y%"`, which is then a placeholder; so expanding the same again is not
always without effect: with `x = "s"`, `"%%x%%"` becomes `"%x%"`, and this `"s"`. -/
theorem C106_false :
    (thenExpand [id' "x", eq', id' "y", comma, brace [id' "x"]] secondOf = some (.tokens [id' "b"]) ∧
      output demoWorld [] (.compose ([id' "x", eq', id' "y", comma] ++ secondOf [id' "x"])) (demoLuck 2 1) = .tokens [id' "y"]) ∧
    (thenExpand [id' "x", eq', .lit (.str (S "r") (S "%y%")), comma, brace [id' "x"]] secondOf =
        some (.tokens [.lit (.str (Ext.demo.strRepr (S "b")) (S "b"))]) ∧
      output demoWorld [] (.compose ([id' "x", eq', .lit (.str (S "r") (S "%y%")), comma] ++ secondOf [id' "x"])) (demoLuck 2 1) =
        .tokens [.lit (.str (S "r") (S "%y%"))]) ∧
    (thenExpand (firstOf [.lit (.str (S "r") (S "%%y%%"))]) secondOf = some (.tokens [.lit (.str (Ext.demo.strRepr (S "b")) (S "b"))]) ∧
      output demoWorld [] (.compose (bothOf [.lit (.str (S "r") (S "%%y%%"))])) (demoLuck 2 1) =
        .tokens [.lit (.str (Ext.demo.strRepr (S "%y%")) (S "%y%"))]) ∧
    (output demoWorld [] (.compose (firstOf [.lit (.str (S "r") (S "%%x%%"))])) (demoLuck 2 1) =
        .tokens [.lit (.str (Ext.demo.strRepr (S "%x%")) (S "%x%"))] ∧
      thenExpand (firstOf [.lit (.str (S "r") (S "%%x%%"))]) firstOf = some (.tokens demoS)) := by decide +kernel

end Verif.Props
