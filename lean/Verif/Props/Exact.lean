import Verif.Props.Run
import Verif.Props.Normalize
import Verif.Props.Funcs
import Verif.Props.Subst
import Verif.Props.Types
import Verif.Props.Visitor
import Verif.Props.Expand
/-!
# Exact conditions for claims that do not hold in general

For the claims whose general form is false (a theorem `C<nn>_…_false` shows a witness), the theorems here say exactly when
they hold.
-/

namespace Verif.Props
open Verif Spec

/-! ## C01: `normalize` -/

section Normalize
variable {C : CharClass}

/-- **C01**, exact: `normalize` yields a valid identifier if and only if all letters and digits of the text may occur in
identifiers and the first one, unless it is a digit, may start one. -/
theorem C01_exact (hu : C.alnum '_' = false) (h_ : C.xidContinue '_' = true)
    (hs : ∀ c, C.xidStart c = true → C.xidContinue c = true) (s : Str) :
    ValidIdent C (normalize C s) ↔ (∀ c ∈ s, C.alnum c = true → C.xidContinue c = true) ∧
      ∀ c, s.find? C.alnum = some c → C.numeric c = false → C.xidStart c = true := by
  rw [normalize_eq hu]
  rcases normalized_shape (C := C) s with ⟨h, hn⟩ | ⟨c, cs, hc, hcs, ⟨cs', hd, hcs'⟩, h⟩
  · refine ⟨fun _ => ⟨fun c hc ha => by simp [hn c hc] at ha, fun c hc => ?_⟩, fun _ => ⟨'_', [], h, .inl rfl, by simp⟩⟩
    have := List.find?_some hc
    rw [hn c (List.mem_of_find?_eq_some hc)] at this
    cases this
  · have hfind : s.find? C.alnum = some c := by
      clear h hcs hcs'
      induction s with
      | nil => simp at hd
      | cons d s ih =>
        by_cases hx : C.alnum d
        · simp [hx] at hd; rw [List.find?_cons_of_pos hx, hd.1]
        · simp [hx] at hd; simp [hx]; exact ih hd
    have hmem : ∀ d, C.alnum d = true → (d ∈ s ↔ d = c ∨ d ∈ cs) := by
      intro d hda
      have h1 : d ∈ cs ↔ d ∈ cs' := by
        have : d ∈ cs.filter C.alnum ↔ d ∈ cs'.filter C.alnum := by rw [hcs', squeeze_filter hu, trimLast_filter]
        simpa [hda] using this
      have h2 : d ∈ s ↔ d ∈ c :: cs' := by
        rw [← hd]
        clear h hcs hcs' hd hfind h1
        induction s with
        | nil => simp
        | cons e s ih =>
          by_cases hx : C.alnum e
          · simp [hx]
          · have : d ≠ e := by rintro rfl; exact hx hda
            simp [hx, this, ih]
      rw [h2, List.mem_cons, h1]
    have hall : (∀ d ∈ cs, C.xidContinue d = true) ↔ ∀ d ∈ cs, C.alnum d = true → C.xidContinue d = true := by
      refine ⟨fun h d hd _ => h d hd, fun h d hd => ?_⟩
      have hk := hcs d hd
      simp only [keepable, Bool.or_eq_true, beq_iff_eq] at hk
      rcases hk with hk | rfl
      · exact h d hd hk
      · exact h_
    have hw : (∀ d ∈ s, C.alnum d = true → C.xidContinue d = true) ↔
        C.xidContinue c = true ∧ ∀ d ∈ cs, C.xidContinue d = true := by
      rw [hall]
      constructor
      · intro h; exact ⟨h c ((hmem c hc).2 (.inl rfl)) hc, fun d hd ha => h d ((hmem d ha).2 (.inr hd)) ha⟩
      · rintro ⟨h1, h2⟩ d hd ha
        rcases (hmem d ha).1 hd with rfl | hd
        · exact h1
        · exact h2 d hd ha
    rw [hw, hfind, h]
    have hcu : c ≠ '_' := by rintro rfl; rw [hu] at hc; cases hc
    by_cases hn : C.numeric c = true
    · simp only [ValidIdent, hn, if_true, List.cons_append, List.nil_append, List.cons.injEq, Option.some.injEq]
      constructor
      · rintro ⟨_, _, ⟨rfl, rfl⟩, -, h2⟩
        exact ⟨⟨h2 c (by simp), fun d hd => h2 d (by simp [hd])⟩, by rintro _ rfl hf; rw [hn] at hf; cases hf⟩
      · rintro ⟨⟨h1, h2⟩, -⟩
        exact ⟨_, _, ⟨rfl, rfl⟩, .inl rfl, by
          intro d hd
          rcases List.mem_cons.1 hd with rfl | hd
          · exact h1
          · exact h2 d hd⟩
    · simp only [ValidIdent, hn, if_false, List.nil_append, List.cons.injEq, Option.some.injEq, Bool.false_eq_true]
      have hn : C.numeric c = false := by simpa using hn
      constructor
      · rintro ⟨_, _, ⟨rfl, rfl⟩, h1, h2⟩
        have h1 := h1.resolve_left hcu
        exact ⟨⟨hs c h1, h2⟩, by rintro _ rfl -; exact h1⟩
      · rintro ⟨⟨h1, h2⟩, h3⟩
        exact ⟨_, _, ⟨rfl, rfl⟩, .inr (h3 c rfl hn), h2⟩

/-- Both sides occur: `a-1` gives an identifier, `x²` does not. -/
example : ValidIdent CharClass.ascii (normalize CharClass.ascii (S "a-1")) ∧
    ¬ ValidIdent CharClass.ascii (normalize CharClass.ascii (S "x²")) :=
  ⟨lexIdent_iff.1 (by decide), fun h => absurd (lexIdent_iff.2 h) (by decide)⟩

end Normalize

/-! ## C36: crashes -/

section Crashes
variable {E : Ext} {seed : Nat}

/-- **C36**, `normalize` and `normalize2`, exact: a crash happens if and only if some letter or digit of the text may not
occur in identifiers, or the first one is not a digit and may not start one. -/
theorem C36_normalize_exact {f : Func} (hf : Builtin "normalize" f ∨ Builtin "normalize2" f) {v : VKind}
    (hv : ArgsFit f [v]) (hu : E.alnum '_' = false) (h_ : E.xidContinue '_' = true)
    (hs : ∀ c, E.xidStart c = true → E.xidContinue c = true) {s : Str} (ht : TextOf E v s) :
    f.impl E seed [v] = .panic ↔ (∃ c ∈ s, E.alnum c = true ∧ E.xidContinue c = false) ∨
      ∃ c, s.find? E.alnum = some c ∧ E.numeric c = false ∧ E.xidStart c = false := by
  have e := normalize2Text_of ht
  subst e
  have key : ∀ s : Str, newIdent E (normalize E.toCharClass s) = .panic ↔
      (∃ c ∈ s, E.alnum c = true ∧ E.xidContinue c = false) ∨
      ∃ c, s.find? E.alnum = some c ∧ E.numeric c = false ∧ E.xidStart c = false := by
    intro s
    have h := C01_exact hu h_ hs s
    rw [← lexIdent_iff] at h
    unfold newIdent
    split
    · rename_i hl
      obtain ⟨h1, h2⟩ := h.1 hl
      simp only [reduceCtorEq, false_iff, not_or, not_exists, not_and, Bool.not_eq_false]
      exact ⟨h1, h2⟩
    · rename_i hl
      simp only [true_iff]
      have := mt h.2 hl
      simp only [Classical.not_and_iff_not_or_not, Classical.not_forall, Bool.not_eq_true] at this
      rcases this with ⟨c, h1, h2, h3⟩ | ⟨c, h1, h2, h3⟩
      · exact .inl ⟨c, h1, h2, h3⟩
      · exact .inr ⟨c, h1, h2, h3⟩
  rcases hf with hf | hf
  · simp only [builtin_iff builtin_normalize, List.mem_singleton] at hf
    subst hf
    obtain ⟨w, hw, ht⟩ := hv
    cases hw
    obtain ⟨ts, rfl⟩ := asRaw_of ht
    exact key _
  · simp only [builtin_iff builtin_normalize2, List.mem_cons, List.not_mem_nil, or_false] at hf
    rcases hf with rfl | rfl | rfl | rfl | rfl | rfl | rfl
    all_goals
      obtain ⟨w, hw, ht⟩ := hv
      cases hw
      simp only [normalize2For, ht, if_true]
      exact key _

/-- The identifier is raw. -/
def IsRaw (s : Str) : Prop := ∃ t, s = 'r' :: '#' :: t

/-- **C36**, `concat`, exact: if the identifiers among the arguments are valid or raw, then there is a crash if and only if
identifiers are joined one of which is raw, or integers are joined one of which, after the first, is negative. -/
theorem C36_concat_exact {f : Func} (hf : Builtin "concat" f) {vs : List VKind} (hv : ArgsFit f vs)
    (hu : E.xidContinue '_' = true) (hs : ∀ c, E.xidStart c = true → E.xidContinue c = true)
    (hh : E.xidContinue '#' = false) (hi : ∀ s, .ident s ∈ vs → ValidIdent E.toCharClass s ∨ IsRaw s) :
    f.impl E seed vs = .panic ↔ (f.args = [.variadic .ident] ∧ ∃ s, .ident s ∈ vs ∧ IsRaw s) ∨
      (f.args = [.variadic .litInt] ∧ ∃ i, .litInt i ∈ vs.tail ∧ i.neg = true) := by
  have hp := C36_concat_partial (E := E) (seed := seed) hf hv hu hs
  simp only [builtin_iff builtin_concat, List.mem_cons, List.not_mem_nil, or_false] at hf
  rcases hf with rfl | rfl | rfl | rfl | rfl
  · obtain ⟨hne, hv⟩ := hv
    obtain ⟨ss, rfl⟩ : ∃ ss : List Str, vs = ss.map .ident := by
      clear hp hne hi
      induction vs with
      | nil => exact ⟨[], rfl⟩
      | cons v vs ih =>
        obtain ⟨ss, rfl⟩ := ih (fun w hw => hv w (by simp [hw]))
        obtain ⟨s, rfl⟩ := asIdent_of (hv v (by simp))
        exact ⟨s :: ss, rfl⟩
    constructor
    · intro h
      refine .inl ⟨rfl, ?_⟩
      refine Classical.byContradiction fun hc => hp (fun v hv' => ?_) h
      obtain ⟨s, hs', rfl⟩ := List.mem_map.1 hv'
      exact (hi s hv').resolve_right fun hr => hc ⟨s, hv', hr⟩
    · rintro (⟨-, s, hs', t, rfl⟩ | ⟨h, -⟩)
      · have hm : '#' ∈ ss.flatten := by
          exact List.mem_flatten.2 ⟨'r' :: '#' :: t, by simpa using hs', by simp⟩
        have hl : E.lexIdent ss.flatten = false := by
          rw [Bool.eq_false_iff, ne_eq, lexIdent_iff]
          rintro ⟨c, cs, h1, h2, h3⟩
          rw [h1] at hm
          rcases List.mem_cons.1 hm with rfl | hm
          · rcases h2 with h2 | h2
            · exact absurd h2 (by decide)
            · rw [hs _ h2] at hh; cases hh
          · rw [h3 _ hm] at hh; cases hh
        simp [concatIdents, allOf_map (sel := VKind.asIdent) (mk := .ident) (fun _ => rfl), concatStrs, newIdent, hl]
      · simp [concatIdents] at h
  · obtain ⟨v, ws, rfl, -, -, hw⟩ := hv
    obtain ⟨l, hl⟩ := allOf_ok_of (sel := VKind.asTokens) (vs := ws)
      (fun w h => by obtain ⟨ts, rfl⟩ := asTokens_of (hw w h); rfl)
    constructor
    · intro h
      simp only [concatIdentTokens, hl, Res.bind_eq, Res.bind_ok] at h
      split at h <;> cases h
    · rintro (⟨h, -⟩ | ⟨h, -⟩) <;> simp [concatIdentTokens] at h
  · obtain ⟨hne, hv⟩ := hv
    obtain ⟨l, hl⟩ := allOf_ok_of (sel := VKind.asLitStr) (vs := vs)
      (fun w h => by obtain ⟨r, s, rfl⟩ := asLitStr_of (hv w h); rfl)
    simp [concatLitStrs, hl]
  · obtain ⟨hne, hv⟩ := hv
    obtain ⟨is, rfl⟩ : ∃ is : List IntLit, vs = is.map .litInt := by
      clear hp hne hi
      induction vs with
      | nil => exact ⟨[], rfl⟩
      | cons v vs ih =>
        obtain ⟨ss, rfl⟩ := ih (fun w hw => hv w (by simp [hw]))
        obtain ⟨s, rfl⟩ := asLitInt_of (hv v (by simp))
        exact ⟨s :: ss, rfl⟩
    obtain ⟨i, is, rfl⟩ : ∃ i l, is = i :: l := by
      cases is with
      | nil => exact absurd rfl hne
      | cons i l => exact ⟨i, l, rfl⟩
    have hsig := C31_concat_signed (E := E) (seed := seed) (f := concatLitInts 24)
      ⟨(builtin_iff builtin_concat).2 (by simp), rfl⟩ i is
    have htail : ((i :: is).map VKind.litInt).tail = is.map .litInt := rfl
    simp only [htail]
    constructor
    · intro h
      refine .inr ⟨rfl, Classical.byContradiction fun hc => ?_⟩
      obtain ⟨ds, -, hok⟩ := hsig.1 fun j hj => by
        rw [← Bool.not_eq_true]; exact fun hn => hc ⟨j, List.mem_map_of_mem hj, hn⟩
      rw [hok] at h; cases h
    · rintro (⟨h, -⟩ | ⟨-, j, hj, hn⟩)
      · simp [concatLitInts] at h
      · exact hsig.2 ⟨j, by simpa using hj, hn⟩
  · obtain ⟨hne, hv⟩ := hv
    obtain ⟨l, hl⟩ := allOf_ok_of (sel := VKind.asTokens) (vs := vs)
      (fun w h => by obtain ⟨s, rfl⟩ := asTokens_of (hv w h); rfl)
    simp [concatTokens, hl]

example : Ext.demo.xidContinue '#' = false ∧ IsRaw (S "r#type") ∧
    (concatIdents 21).impl Ext.demo 0 [.ident (S "x"), .ident (S "r#type")] = .panic ∧
    (concatLitInts 24).impl Ext.demo 0 [.litInt ⟨true, S "1", 1⟩, .litInt ⟨false, S "2", 2⟩] = .ok (.litInt ⟨true, S "12", 12⟩) :=
  ⟨by decide, ⟨S "type", rfl⟩, by decide, by decide⟩

/-! ## C31: flattening -/

theorem decimal_head_zero (n : Nat) (h : (decimal n).head? = some '0') : n = 0 := by
  induction n using Nat.strongRecOn with
  | _ n ih =>
    by_cases hn : n < 10
    · rw [decimal, Nat.toDigits_of_lt_base hn] at h
      have : n = 0 ∨ n = 1 ∨ n = 2 ∨ n = 3 ∨ n = 4 ∨ n = 5 ∨ n = 6 ∨ n = 7 ∨ n = 8 ∨ n = 9 := by omega
      rcases this with rfl | rfl | rfl | rfl | rfl | rfl | rfl | rfl | rfl | rfl <;> first | rfl | exact absurd h (by decide)
    · have h2 : (decimal (n / 10)).head? = some '0' := by
        rw [decimal, Nat.toDigits_of_base_le (by omega) (by omega), List.head?_append] at h
        cases hx : decimal (n / 10) with
        | nil => exact (decimal_ne_nil _ hx).elim
        | cons c cs => rw [decimal] at hx; rw [hx] at h; exact h
      have := ih (n / 10) (by omega) h2
      omega

/-- **C31**, exact: an inner concatenation of integers can be flattened if and only if it has no leading zero or is just 0. -/
theorem C31_flatten_exact {f : Func} (hf : ConcatOf .litInt f) {a b c : List (Str × Nat)} (hb : b ≠ []) {w : VKind}
    (h : f.impl E seed (b.map intVal) = .ok w) :
    f.impl E seed (a.map intVal ++ w :: c.map intVal) = f.impl E seed ((a ++ b ++ c).map intVal) ↔
      (digitsOf b).head? ≠ some '0' ∨ digitsOf b = ['0'] := by
  rw [C31_concat_ints hf hb] at h
  cases h
  have h1 := C31_concat_ints (E := E) (seed := seed) hf (l := a ++ (digitsOf b, ofDecimal (digitsOf b)) :: c) (by simp)
  simp only [List.map_append, List.map_cons] at h1
  have h2 := C31_concat_ints (E := E) (seed := seed) hf (l := a ++ b ++ c) (by simp [hb])
  have h1' : f.impl E seed (a.map intVal ++ .litInt ⟨false, digitsOf b, ofDecimal (digitsOf b)⟩ :: c.map intVal) = _ := h1
  rw [h1', h2]
  have e1 : digitsOf (a ++ (digitsOf b, ofDecimal (digitsOf b)) :: c) = digitsOf a ++ (decimal (ofDecimal (digitsOf b)) ++ digitsOf c) := by
    simp [digitsOf]
  have e2 : digitsOf (a ++ b ++ c) = digitsOf a ++ (digitsOf b ++ digitsOf c) := by simp [digitsOf]
  have key : decimal (ofDecimal (digitsOf b)) = digitsOf b ↔ (digitsOf b).head? ≠ some '0' ∨ digitsOf b = ['0'] := by
    constructor
    · intro he
      by_cases h0 : (digitsOf b).head? = some '0'
      · right
        have := decimal_head_zero _ (he ▸ h0)
        rw [← he, this]; rfl
      · exact .inl h0
    · rintro (h0 | h0)
      · exact (decimal_ofDecimal _ (digitsOf_ne_nil hb) digitsOf_isDigit h0).2
      · rw [h0]; rfl
  rw [← key]
  constructor
  · intro he
    simp only [Res.ok.injEq, VKind.litInt.injEq, IntLit.mk.injEq, true_and] at he
    have := he.1
    rw [e1, e2] at this
    exact List.append_cancel_right (List.append_cancel_left this)
  · intro he
    rw [e1, e2, he]

example : digitsOf [(S "0", 0)] = ['0'] ∧ (digitsOf [(S "0", 0), (S "2", 2)]).head? = some '0' := by decide

end Crashes

/-! ## C20: coercions -/

/-- **C20**, exact: an accepted coercion fails if and only if it makes a type or an expression of an identifier which the
grammar does not accept as such; the failure is an error. -/
theorem C20_exact (E : Ext) (v : VKind) (to : Ty) (h : CoercesToV v.ty to) :
    ((∃ w, tryCast E v to = .ok w ∧ w.ty = to ∧ w.toTokens = v.toTokens) ↔
      ∀ s, v = .ident s → (to = .type → E.isType [.ident s] = true) ∧ (to = .expr → E.isExpr [.ident s] = true)) ∧
    ((∃ w, tryCast E v to = .ok w) ∨ tryCast E v to = .err (castError v.ty to)) := by
  unfold tryCast
  by_cases he : v.ty = to
  · rw [if_pos he]
    refine ⟨⟨fun _ s hs => ?_, fun _ => ⟨v, rfl, he, rfl⟩⟩, .inl ⟨v, rfl⟩⟩
    subst hs
    simp only [VKind.ty] at he
    subst he
    simp
  · rw [if_neg he]
    cases v <;> simp only [VKind.ty] at h he <;> cases h with
    | base h => cases h <;> first
      | exact absurd rfl he
      | (refine ⟨⟨by simp, fun _ => ⟨_, rfl, rfl, rfl⟩⟩, .inl ⟨_, rfl⟩⟩; done)
      | (dsimp only; split <;> simp_all [VKind.ty, VKind.toTokens])

/-- An identifier that is a keyword, and one that is not. -/
example : tryCast Ext.demo (.ident (S "fn")) .type = .err (castError .ident .type) ∧
    tryCast Ext.demo (.ident (S "foo")) .type = .ok (.type [.ident (S "foo")]) := by decide

/-! ## C12: code without aliases -/

section Untouched
variable {E : Ext} {valid : Toks → Bool} {subs : Subs}

mutual
theorem strLitsTok_of_same {look : Str → Option Toks} {str : Str → Lit} (t : Tok)
    (hl : ∀ n, (look n).isSome → ¬ mentionsTok n t) (h : substTok look str t = [t]) :
    strLitsTok (fun r v => str v = .str r v) t := by
  match t with
  | .ident n => trivial
  | .punct c j => trivial
  | .lit (.str r v) => simpa [substTok, strLitsTok] using h
  | .lit (.int _ _) => trivial
  | .lit (.other _) => trivial
  | .group d ts => exact strLits_of_same ts hl (by simpa [substTok] using h)
theorem strLits_of_same {look : Str → Option Toks} {str : Str → Lit} (ts : Toks)
    (hl : ∀ n, (look n).isSome → ¬ mentions n ts) (h : substAll look str ts = ts) :
    strLits (fun r v => str v = .str r v) ts := by
  match ts with
  | [] => trivial
  | t :: ts =>
    have h1 : ∃ t', substTok look str t = [t'] := by
      match t with
      | .ident n =>
        cases hn : look n with
        | none => exact ⟨_, by simp [substTok, hn]; rfl⟩
        | some v => exact (hl n (by simp [hn]) (.inl rfl)).elim
      | .punct c j => exact ⟨_, rfl⟩
      | .lit (.str r v) => exact ⟨_, rfl⟩
      | .lit (.int _ _) => exact ⟨_, rfl⟩
      | .lit (.other _) => exact ⟨_, rfl⟩
      | .group d ts => exact ⟨_, by simp only [substTok]; rfl⟩
    obtain ⟨t', h1⟩ := h1
    simp only [substAll, h1, List.singleton_append, List.cons.injEq] at h
    obtain ⟨rfl, h2⟩ := h
    exact ⟨strLitsTok_of_same t' (fun n hn hm => hl n hn (.inl hm)) h1,
      strLits_of_same ts (fun n hn hm => hl n hn (.inr hm)) h2⟩
end

mutual
theorem strLitsTok_and {P Q : Str → Str → Prop} (t : Tok) (hp : strLitsTok P t) (hq : strLitsTok Q t) :
    strLitsTok (fun r v => P r v ∧ Q r v) t := by
  match t with
  | .ident n => trivial
  | .punct c j => trivial
  | .lit (.str r v) => exact ⟨hp, hq⟩
  | .lit (.int _ _) => trivial
  | .lit (.other _) => trivial
  | .group d ts => exact strLits_and ts hp hq
theorem strLits_and {P Q : Str → Str → Prop} (ts : Toks) (hp : strLits P ts) (hq : strLits Q ts) :
    strLits (fun r v => P r v ∧ Q r v) ts := by
  match ts with
  | [] => trivial
  | t :: ts => exact ⟨strLitsTok_and t hp.1 hq.1, strLits_and ts hp.2 hq.2⟩
end

/-- **C12**, exact: well-formed code that mentions no alias and has no `%` in its string literals is returned unchanged if
and only if its string literals are spelled the plain way. -/
theorem C12_exact {node : Toks} (h0 : valid node = true) (hm : ∀ n, (List.lookup n subs).isSome → ¬ mentions n node)
    (hs : strLits (fun _ v => '%' ∉ v) node) :
    substituteIdents E valid subs node = .ok node ↔ strLits (fun r v => r = E.strRepr v) node := by
  constructor
  · intro h
    have h1 := (substituteIdents_ok h).1.symm
    have h2 := strLits_of_same node (fun n hn => hm n (by simpa [lookToks, get_eq_lookup] using hn)) h1
    refine strLits_imp (fun r v hv => ?_) node (strLits_and node hs h2)
    have h3 := hv.2
    simp only [strLit, fmtStr, formatString_plain v hv.1, Lit.str.injEq] at h3
    exact h3.1.symm
  · intro h
    exact C12_untouched_plain_partial h0 hm (strLits_and node hs h)

example : strLits (fun _ v => '%' ∉ v) [.ident (S "x"), .lit (.str (S "r\"y\"") (S "y"))] ∧
    substituteIdents Ext.demo (fun _ => true) demoSubs [.ident (S "x"), .lit (.str (S "r\"y\"") (S "y"))] ≠
      .ok [.ident (S "x"), .lit (.str (S "r\"y\"") (S "y"))] :=
  ⟨by simp [strLits, strLitsTok]; decide, by decide⟩

end Untouched

/-! ## C18: panics of the substitution -/

section Panics
variable {E : Ext} {G : Grammar} {subs : Subs}

/-- **C18**, exact, for a piece of code: if the grammar does not look into string literals, then there is a panic if and only if the
piece is not well formed and the first thing to be replaced in it, if any, is a string literal. -/
theorem C18_piece_exact {valid : Toks → Bool} (hv : StringBlind valid) (node : Toks) :
    substituteIdents E valid subs node = .panic ↔
      valid node = false ∧ ∀ t ∈ (occAll (valueToks subs) node).head?, aliasOf t = none := by
  have hstep : ∀ k, (∀ u ∈ (occAll (lookToks subs) node).take k, aliasOf u = none) →
      valid (substFirst (lookToks subs) (strLit E subs) k node) = valid node := fun k hk =>
    hv _ _ (strip_substFirst _ _ (fun v => ⟨_, _, rfl⟩) node k hk)
  have htake : (∀ t ∈ (occAll (lookToks subs) node).head?, aliasOf t = none) →
      ∀ u ∈ (occAll (lookToks subs) node).take 1, aliasOf u = none := by
    cases occAll (lookToks subs) node with
    | nil => simp
    | cons t ts => simp
  rw [valueToks_eq]
  unfold substituteIdents
  rw [walk_eq]
  rcases goList_checked (E := E) (valid := valid) (subs := subs) node id [] none with ⟨h1, h2⟩ | ⟨k, h1, h2, h3, h4, h5⟩
  · rw [h2]
    simp only [Res.map, Res.bind_eq, Res.bind_ok]
    have he := substFirst_all (lookToks subs) (strLit E subs) node _ (Nat.le_refl _)
    cases ho : (occAll (lookToks subs) node).length with
    | zero =>
      rw [ho, substFirst_zero] at he
      rw [← he]
      simp only [List.length_eq_zero_iff] at ho
      rw [ho]
      cases valid node <;> simp
    | succ n =>
      have h7 := h1 _ (by omega) (Nat.le_refl _)
      simp only [id, List.nil_append] at h7
      rw [he] at h7
      simp only [h7, if_true, reduceCtorEq, false_iff, not_and]
      intro hf hh
      have h8 := h1 1 (Nat.le_refl _) (by omega)
      simp only [id, List.nil_append] at h8
      rw [hstep 1 (htake hh), hf] at h8
      cases h8
  · simp only [id, List.nil_append] at h3 h4
    simp only [h5, stateAfter_lastAlias]
    constructor
    · intro h
      have hl : lastAlias (lookToks subs) node k = none := by
        cases hl : lastAlias (lookToks subs) node k with
        | none => rfl
        | some n => rw [hl] at h; cases h
      have hn : ∀ u ∈ (occAll (lookToks subs) node).take k, aliasOf u = none := by
        unfold lastAlias at hl
        rw [List.getLast?_eq_none_iff, List.filterMap_eq_nil_iff] at hl
        exact hl
      refine ⟨by rw [← hstep k hn]; exact h3, fun t ht => hn t ?_⟩
      cases ho : occAll (lookToks subs) node with
      | nil => rw [ho] at ht; cases ht
      | cons u us =>
        rw [ho] at ht
        cases ht
        obtain ⟨j, rfl⟩ : ∃ j, k = j + 1 := ⟨k - 1, by omega⟩
        simp
    · rintro ⟨hf, hh⟩
      have hk : k = 1 := by
        refine Classical.byContradiction fun hk => ?_
        have := h4 1 (Nat.le_refl _) (by omega)
        rw [hstep 1 (htake hh), hf] at this
        cases this
      subst hk
      have hl : lastAlias (lookToks subs) node 1 = none := by
        unfold lastAlias
        rw [List.getLast?_eq_none_iff, List.filterMap_eq_nil_iff]
        exact htake hh
      rw [hl]
      rfl

/-- **C18**, exact, for blocks: there is a panic if and only if the first piece in which the substitution does not succeed is a list of
attributes that cannot be read as outer ones, and in which the first thing to be replaced, if any, is a string literal. -/
theorem C18_exact (hv : ∀ k, StringBlind (validPart G k)) {b : List Stmt}
    (hb : ∀ p ∈ stmtsParts b, p.1 ≠ .attrs → validPart G p.1 p.2 = true) :
    visitBlock E G subs b = .panic ↔ ∃ pre attrs post, stmtsParts b = pre ++ (.attrs, attrs) :: post ∧
      (∀ q ∈ pre, ∃ out, substituteIdents E (validPart G q.1) subs q.2 = .ok out) ∧
      validPart G .attrs attrs = false ∧ ∀ t ∈ (occAll (valueToks subs) attrs).head?, aliasOf t = none := by
  have hs := visitBlock_spec id (E := E) (subs := subs) b (fun p hp h => hb p hp (by rw [h]; simp))
  have hrun : visitBlock E G subs b = .panic ↔ runParts E G subs (stmtsParts b) = .panic := by
    cases hr : runParts E G subs (stmtsParts b) with
    | ok a => rw [hr] at hs; obtain ⟨b', h, -⟩ := hs; rw [h]; simp
    | err e => rw [hr] at hs; rw [hs]; simp
    | panic => rw [hr] at hs; simp [hs]
  rw [hrun]
  clear hs hrun
  generalize stmtsParts b = ps at hb
  constructor
  · intro h
    induction ps with
    | nil => simp [runParts] at h
    | cons p ps ih =>
      simp only [runParts] at h
      rcases Res.bind_eq_panic.1 h with h | ⟨out, ho, h⟩
      · obtain ⟨k, ts⟩ := p
        obtain ⟨h1, h2⟩ := (C18_piece_exact (hv k) ts).1 h
        have hk : k = .attrs := by
          refine Classical.byContradiction fun hk => ?_
          have := hb (k, ts) (by simp) hk
          rw [h1] at this
          cases this
        subst hk
        exact ⟨[], ts, ps, rfl, by simp, h1, h2⟩
      · obtain ⟨pre, attrs, post, rfl, h1, h2⟩ := ih (fun q hq => hb q (by simp [hq])) h
        refine ⟨p :: pre, attrs, post, rfl, ?_, h2⟩
        intro q hq
        rcases List.mem_cons.1 hq with rfl | hq
        · exact ⟨out, ho⟩
        · exact h1 q hq
  · rintro ⟨pre, attrs, post, rfl, h1, h2, h3⟩
    rw [runParts_append, runParts_ok h1]
    simp [runParts, (C18_piece_exact (hv .attrs) attrs).2 ⟨h2, h3⟩]

/-- `fn f() { #![x] }`: with the alias `x` an error, without it a panic. -/
example : let b : List Stmt := [.item (.fn [⟨true, [.ident (S "x")]⟩] [] [.ident (S "fn"), .ident (S "f"), .group .paren []] [])]
    (∀ k, StringBlind (validPart Grammar.demo k)) ∧
    (∀ p ∈ stmtsParts b, p.1 ≠ .attrs → validPart Grammar.demo p.1 p.2 = true) ∧
    visitBlock Ext.demo Grammar.demo [] b = .panic ∧
    visitBlock Ext.demo Grammar.demo [(S "x", .ident (S "y"))] b = .err (.substitution (S "x") (S "y")) :=
  ⟨Grammar.demo_blind, by decide, rfl, rfl⟩

end Panics

/-! ## C42: destructuring -/

section Tuples
variable {α ε : Type}

/-- The elements of the tuples in a list. -/
def below (ts : List (Tup α)) : List (Tup α) := ts.flatMap fun | .val _ => [] | .tup us => us

theorem sizeL_below (t : Tup α) (ts : List (Tup α)) : Tup.sizeL (below (t :: ts)) < Tup.sizeL (t :: ts) := by
  induction ts generalizing t with
  | nil => cases t <;> simp [below, Tup.sizeL, Tup.size]
  | cons u ts ih =>
    have := ih u
    simp only [below, List.flatMap_cons, Tup.sizeL_append, Tup.sizeL] at this ⊢
    cases t <;> simp only [Tup.size, Tup.sizeL] at * <;> omega

/-- What a tuple contains, read level by level: values and, as `none`, tuples. -/
def byLevels : List (Tup α) → List (Option α)
  | [] => []
  | t :: ts => ((t :: ts).map fun | .val a => some a | .tup _ => none) ++ byLevels (below (t :: ts))
termination_by ts => Tup.sizeL ts
decreasing_by exact sizeL_below t ts

theorem kindsAux_level (ts acc : List (Tup α)) (n : Nat) (h : Tup.sizeL (ts ++ acc) ≤ n) :
    Tup.kindsAux n (ts ++ acc) = (ts.map fun | .val _ => true | .tup _ => false) ++ Tup.kindsAux (n - ts.length) (acc ++ below ts) := by
  induction ts generalizing acc n with
  | nil => simp [below]
  | cons t ts ih =>
    have hp := Tup.size_pos t
    obtain ⟨m, rfl⟩ : ∃ m, n = m + 1 := ⟨n - 1, by simp only [List.cons_append, Tup.sizeL] at h; omega⟩
    cases t with
    | val a =>
      simp only [List.cons_append, Tup.kindsAux, List.map_cons, List.length_cons, Nat.add_sub_add_right]
      rw [ih acc m (by simp only [List.cons_append, Tup.sizeL, Tup.size] at h; omega)]
      simp [below]
    | tup us =>
      simp only [List.cons_append, Tup.kindsAux, List.map_cons, List.length_cons, Nat.add_sub_add_right, List.append_assoc]
      rw [ih (acc ++ us) m (by simp only [List.cons_append, Tup.sizeL, Tup.size, Tup.sizeL_append] at h ⊢; omega)]
      simp [below]

theorem leavesAux_level (ts acc : List (Tup α)) (n : Nat) (h : Tup.sizeL (ts ++ acc) ≤ n) :
    Tup.leavesAux n (ts ++ acc) = (ts.filterMap fun | .val a => some a | .tup _ => none) ++ Tup.leavesAux (n - ts.length) (acc ++ below ts) := by
  induction ts generalizing acc n with
  | nil => simp [below]
  | cons t ts ih =>
    have hp := Tup.size_pos t
    obtain ⟨m, rfl⟩ : ∃ m, n = m + 1 := ⟨n - 1, by simp only [List.cons_append, Tup.sizeL] at h; omega⟩
    cases t with
    | val a =>
      simp only [List.cons_append, Tup.leavesAux, List.filterMap_cons, List.length_cons, Nat.add_sub_add_right]
      rw [ih acc m (by simp only [List.cons_append, Tup.sizeL, Tup.size] at h; omega)]
      simp [below]
    | tup us =>
      simp only [List.cons_append, Tup.leavesAux, List.filterMap_cons, List.length_cons, Nat.add_sub_add_right, List.append_assoc]
      rw [ih (acc ++ us) m (by simp only [List.cons_append, Tup.sizeL, Tup.size, Tup.sizeL_append] at h ⊢; omega)]
      simp [below]

theorem sizeL_below_le (ts : List (Tup α)) : Tup.sizeL (below ts) + ts.length ≤ Tup.sizeL ts := by
  induction ts with
  | nil => simp [below]
  | cons t ts ih =>
    simp only [below, List.flatMap_cons, Tup.sizeL_append, Tup.sizeL, List.length_cons] at ih ⊢
    cases t <;> simp only [Tup.size, Tup.sizeL] at * <;> omega

theorem byLevels_aux (ts : List (Tup α)) : ∀ n, Tup.sizeL ts ≤ n →
    Tup.kindsAux n ts = (byLevels ts).map Option.isSome ∧ Tup.leavesAux n ts = (byLevels ts).filterMap id := by
  fun_induction byLevels ts with
  | case1 => intro n _; cases n <;> exact ⟨rfl, rfl⟩
  | case2 t ts ih =>
    intro n hn
    have hk := kindsAux_level (t :: ts) [] n (by simpa using hn)
    have hl := leavesAux_level (t :: ts) [] n (by simpa using hn)
    have hb := sizeL_below_le (t :: ts)
    obtain ⟨h1, h2⟩ := ih (n - (t :: ts).length) (by omega)
    simp only [List.append_nil, List.nil_append] at hk hl
    rw [hk, hl, h1, h2]
    constructor
    · simp only [List.map_append, List.map_map]
      congr 1
      refine List.map_congr_left fun t _ => ?_
      cases t <;> rfl
    · simp only [List.filterMap_append, List.filterMap_map]
      congr 1

/-- **C42**, exact: a value tuple is accepted for an alias tuple if and only if, read level by level, both have values and tuples at the same
positions; then the aliases are bound to the values in this order. -/
theorem C42_exact (as : List (Tup α)) (es : List (Tup ε)) (items : List (α × ε)) :
    makeSpecItems (.tuple as) (.tuple es) = .ok items ↔
      (byLevels as).map Option.isSome = (byLevels es).map Option.isSome ∧
      items = List.zip ((byLevels as).filterMap id) ((byLevels es).filterMap id) := by
  obtain ⟨k1, l1⟩ := byLevels_aux as _ (Nat.le_refl _)
  obtain ⟨k2, l2⟩ := byLevels_aux es _ (Nat.le_refl _)
  simp only [makeSpecItems, matchTuples_eq, Tup.kinds, Tup.leaves, k1, k2, l1, l2]
  split
  · rename_i h
    simp [h, eq_comm]
  · rename_i h
    simp [h]

/-- Tuples of different shapes that are accepted. -/
example : byLevels [.tup [.val 'a', .val 'b'], .tup [.val 'c']] = [none, none, some 'a', some 'b', some 'c'] ∧
    byLevels [.tup [.val 1], .tup [.val 2, .val 3]] = [none, none, some 1, some 2, some 3] := by
  constructor <;> simp [byLevels, below]

end Tuples

/-! ## C52: the macro named in warnings -/

/-- **C52**, exact: the warnings of an invocation start with the name of the macro that was invoked first on the thread. -/
theorem C52_exact {W : World} {hist : List (Invocation × Luck)} {inv : Invocation} {l : Luck} (hs : Scheduled W hist inv l) {a : PAst}
    (ha : Reads W inv a) : ∃ first, first ∈ (hist.map (·.1) ++ [inv]).head? ∧
      output W hist inv l = .ofRes (expansion W (Env.builtin (l.ids 0)) (serviceFor (macroName first ++ S "!: ") (withSemicolons a.spec)) (tree a)) := by
  refine ⟨firstOn hist inv, ?_, output_reads hs ha⟩
  cases hist <;> rfl

example : Scheduled demoWorld [(.composeIdents [], demoLuck 2 0)] (.compose demoSemi) (demoLuck 2 1) ∧
    (∃ a, Reads demoWorld (.compose demoSemi) a ∧ withSemicolons a.spec = true) :=
  ⟨demo_scheduled _ _ (by decide +kernel), _, reads_of_parse (ids := fun k => k) (k := 0) rfl, rfl⟩

end Verif.Props
