import Verif.Lite.Facts
import Verif.Props.NoCrash
/-!
# ASCII texts: what the lexer, the printer and the case conversions of `Verif/Lite` do with them

`C82` assumes `AsciiExt` of external code. Here it is proved for the stand-ins of `Verif/Lite`, among them a version of `heck`'s word splitting.
-/

namespace Verif.Lite
open Verif Spec Verif.Props

/-! ## Printing and quoting -/

mutual
theorem renderTok_plain : ∀ (t : Tok), TokFine PlainText PlainChar t → PlainText (renderTok t)
  | .ident _, h => h
  | .punct c _, h => fun d hd => by rw [renderTok, List.mem_singleton] at hd; rw [hd]; exact h
  | .lit (.str _ _), h => h.1
  | .lit (.int _ _), h => h
  | .lit (.other _), h => h
  | .group .paren ts, h => plainText_append (a := '(' :: render ts) (plainText_append (a := ['(']) (by decide) (render_plain ts h)) (by decide)
  | .group .brace ts, h => by
    rw [renderTok]
    refine plainText_append (plainText_append (by decide) (render_plain ts h)) ?_
    split <;> decide
  | .group .bracket ts, h => plainText_append (a := '[' :: render ts) (plainText_append (a := ['[']) (by decide) (render_plain ts h)) (by decide)
  | .group .none ts, h => render_plain ts h
theorem render_plain : ∀ (ts : List Tok), ToksFine PlainText PlainChar ts → PlainText (render ts)
  | [], _ => by intro c hc; cases hc
  | [t], h => by
    have := renderTok_plain t h.1
    rw [render]; exact this
  | t :: u :: ts, h => by
    have h1 := renderTok_plain t h.1
    have h2 := render_plain (u :: ts) h.2
    have h3 : PlainText (renderTok t ++ ' ' :: render (u :: ts)) := plainText_append h1 (plainText_append (a := [' ']) (by decide) h2)
    cases t with
    | punct c j =>
      cases j with
      | true => rw [render.eq_3 _ _ (by simp)]; exact plainText_append (a := [c]) h1 h2
      | false => exact h3
    | _ => exact h3
end

theorem plainText_flatMap {f : Char → Str} (hf : ∀ n : Fin 128, PlainChar (Char.ofNat n.val) → PlainText (f (Char.ofNat n.val))) {s : Str} (h : PlainText s) :
    PlainText (s.flatMap f) := by
  intro c hc
  obtain ⟨d, hd, hc⟩ := List.mem_flatMap.1 hc
  exact ascii_all (P := fun d => PlainChar d → PlainText (f d)) hf (h d hd).1 (h d hd) c hc

theorem quote_plain {s : Str} (h : PlainText s) : PlainText (quote s) := by
  unfold quote
  exact plainText_append (a := '"' :: _) (plainText_append (a := ['"']) (by decide) (plainText_flatMap (by decide +kernel) h)) (by decide)

/-! ## Words -/

theorem words_cons (cur : Str) (m : Option Bool) (c : Char) (s : Str) : ∃ (next : Option Bool) (b b' : Bool), words cur m (c :: s) =
    if !c.isAlphanum then (if cur.isEmpty then [] else [cur.reverse]) ++ words [] none s
    else if b then (c :: cur).reverse :: words [] none s
    else if m == some true && b' then cur.reverse :: words [c] none s
    else words (c :: cur) next s := by
  refine ⟨if c.isLower then some false else if c.isUpper then some true else m,
    (if c.isLower then some false else if c.isUpper then some true else m) == some false && (match s with | d :: _ => d.isUpper | [] => false),
    c.isUpper && (match s with | d :: _ => d.isLower | [] => false), ?_⟩
  rw [words.eq_def]
  simp only [Bool.and_assoc]
  rfl

/-- Words consist of letters and digits of the text and are not empty. -/
theorem words_mem : ∀ {s cur : Str} {m : Option Bool} {w : Str}, (∀ c ∈ cur, c.isAlphanum = true) → (cur = [] → m = none) → w ∈ words cur m s →
    w ≠ [] ∧ ∀ c ∈ w, c.isAlphanum = true ∧ (c ∈ cur ∨ c ∈ s)
  | [], cur, m, w, hc, hm, h => by
    rw [words.eq_def] at h
    simp only at h
    split at h
    · cases h
    · next he =>
      rw [List.mem_singleton] at h
      subst h
      exact ⟨by simpa using he, fun c h => ⟨hc c (by simpa using h), .inl (by simpa using h)⟩⟩
  | c :: s, cur, m, w, hc, hm, h => by
    have he : ∀ {v : Str}, v ∈ (if cur.isEmpty then [] else [cur.reverse]) → v ≠ [] ∧ ∀ c ∈ v, c.isAlphanum = true ∧ c ∈ cur := by
      intro v hv
      split at hv
      · cases hv
      · next he =>
        rw [List.mem_singleton] at hv
        subst hv
        exact ⟨by simpa using he, fun c h => ⟨hc c (by simpa using h), by simpa using h⟩⟩
    have rest : ∀ {v : Str}, v ∈ words [] none s → v ≠ [] ∧ ∀ d ∈ v, d.isAlphanum = true ∧ (d ∈ cur ∨ d ∈ c :: s) := by
      intro v hv
      have := words_mem (cur := []) (by simp) (by simp) hv
      exact ⟨this.1, fun d hd => ⟨(this.2 d hd).1, by
        rcases (this.2 d hd).2 with h | h
        · cases h
        · exact .inr (by simp [h])⟩⟩
    obtain ⟨next, b, b', hw⟩ := words_cons cur m c s
    rw [hw] at h
    split at h
    · rcases List.mem_append.1 h with h | h
      · exact ⟨(he h).1, fun d hd => ⟨((he h).2 d hd).1, .inl ((he h).2 d hd).2⟩⟩
      · exact rest h
    · next hal =>
      have hal : c.isAlphanum = true := by simpa using hal
      split at h
      · rcases List.mem_cons.1 h with rfl | h
        · refine ⟨by simp, fun d hd => ?_⟩
          simp only [List.reverse_cons, List.mem_append, List.mem_reverse, List.mem_singleton] at hd
          rcases hd with hd | rfl
          · exact ⟨hc d hd, .inl hd⟩
          · exact ⟨hal, .inr (by simp)⟩
        · exact rest h
      · split at h
        · next hsome =>
          rcases List.mem_cons.1 h with rfl | h
          · have hne : cur ≠ [] := by
              intro e
              rw [hm e] at hsome
              simp at hsome
            exact ⟨by simpa using hne, fun d hd => ⟨hc d (by simpa using hd), .inl (by simpa using hd)⟩⟩
          · have := words_mem (cur := [c]) (by simpa using hal) (by simp) h
            exact ⟨this.1, fun d hd => ⟨(this.2 d hd).1, by
              rcases (this.2 d hd).2 with h | h
              · exact .inr (by simp_all)
              · exact .inr (by simp [h])⟩⟩
        · have := words_mem (cur := c :: cur) (by simp [hal]; exact hc) (by simp) h
          exact ⟨this.1, fun d hd => ⟨(this.2 d hd).1, by
            rcases (this.2 d hd).2 with h | h
            · rcases List.mem_cons.1 h with rfl | h
              · exact .inr (by simp)
              · exact .inl h
            · exact .inr (by simp [h])⟩⟩

/-- The first word starts with the first character. -/
theorem words_head : ∀ {s cur : Str} {m : Option Bool}, cur ≠ [] → ∃ w ws, words cur m s = w :: ws ∧ w.head? = cur.reverse.head?
  | [], cur, m, hc => ⟨cur.reverse, [], by rw [words.eq_def]; simp [hc], rfl⟩
  | c :: s, cur, m, hc => by
    obtain ⟨next, b, b', hw⟩ := words_cons cur m c s
    rw [hw]
    have hh : ((c :: cur).reverse).head? = cur.reverse.head? := by
      have : cur.reverse ≠ [] := by simpa using hc
      cases h : cur.reverse with
      | nil => exact absurd h this
      | cons d ds => simp [h]
    split
    · exact ⟨cur.reverse, words [] none s, by simp [hc], rfl⟩
    · split
      · exact ⟨_, _, rfl, hh⟩
      · split
        · exact ⟨_, _, rfl, rfl⟩
        · obtain ⟨w, ws, h1, h2⟩ := words_head (s := s) (cur := c :: cur) (m := next) (by simp)
          exact ⟨w, ws, h1, h2.trans hh⟩

theorem words_first {c : Char} (hc : c.isAlpha = true) (s : Str) : ∃ v ws, words [] none (c :: s) = (c :: v) :: ws := by
  have : ∃ w ws, words [] none (c :: s) = w :: ws ∧ w.head? = some c := by
    obtain ⟨next, b, b', hw⟩ := words_cons [] none c s
    rw [hw, if_neg (by simp [Char.isAlphanum, hc])]
    split
    · exact ⟨_, _, rfl, rfl⟩
    · rw [if_neg (by simp)]
      exact words_head (by simp)
  obtain ⟨w, ws, h1, h2⟩ := this
  cases w with
  | nil => cases h2
  | cons d v => cases h2; exact ⟨v, ws, h1⟩

/-! ## Names made of words -/

/-- Letters and digits of an ASCII text. -/
def Wordy (s : Str) : Prop := ∀ c ∈ s, c.toNat < 128 ∧ c.isAlphanum = true

theorem wordy_plain {s : Str} (h : Wordy s) : PlainText s := fun c hc => ⟨(h c hc).1, by rintro rfl; exact absurd (h _ hc).2 (by decide)⟩

theorem words_wordy {s : Str} (h : PlainText s) {w : Str} (hw : w ∈ words [] none s) : Wordy w := fun c hc => by
  obtain ⟨h1, h2⟩ := (words_mem (by simp) (by simp) hw).2 c hc
  rcases h2 with h2 | h2
  · cases h2
  · exact ⟨(h c h2).1, h1⟩

theorem wordy_append {a b : Str} (ha : Wordy a) (hb : Wordy b) : Wordy (a ++ b) := by
  intro c hc
  rcases List.mem_append.1 hc with h | h
  · exact ha c h
  · exact hb c h

theorem wordy_map {g : Char → Char} (hg : ∀ n : Fin 128, (Char.ofNat n.val).isAlphanum = true → (g (Char.ofNat n.val)).toNat < 128 ∧ (g (Char.ofNat n.val)).isAlphanum = true)
    {s : Str} (h : Wordy s) : Wordy (s.map g) := by
  intro c hc
  obtain ⟨d, hd, rfl⟩ := List.mem_map.1 hc
  exact ascii_all (P := fun d => d.isAlphanum = true → (g d).toNat < 128 ∧ (g d).isAlphanum = true) hg (h d hd).1 (h d hd).2

theorem wordy_lower {s : Str} (h : Wordy s) : Wordy (s.map Char.toLower) := wordy_map (by decide +kernel) h
theorem wordy_capital {s : Str} (h : Wordy s) : Wordy (capital s) := by
  cases s with
  | nil => exact h
  | cons c s =>
    have h1 : Wordy ([c].map Char.toUpper) := wordy_map (by decide +kernel) fun d hd => h d (by simp_all)
    have h2 : Wordy (s.map Char.toLower) := wordy_lower fun d hd => h d (by simp_all)
    exact wordy_append h1 h2

theorem wordy_flatten {ws : List Str} (h : ∀ w ∈ ws, Wordy w) : Wordy ws.flatten := by
  intro c hc
  obtain ⟨w, hw, hc⟩ := List.mem_flatten.1 hc
  exact h w hw c hc

theorem joined_chars {ws : List Str} {c : Char} (hc : c ∈ joinUnderscore ws) : c = '_' ∨ ∃ w ∈ ws, c ∈ w := by
  induction ws with
  | nil => cases hc
  | cons w ws ih =>
    cases ws with
    | nil => exact .inr ⟨w, by simp, hc⟩
    | cons v vs =>
      simp only [joinUnderscore, List.mem_append, List.mem_cons] at hc
      rcases hc with hc | rfl | hc
      · exact .inr ⟨w, by simp, hc⟩
      · exact .inl rfl
      · rcases ih hc with h | ⟨u, hu, h⟩
        · exact .inl h
        · exact .inr ⟨u, by simp_all, h⟩

theorem snake_chars {s : Str} (h : PlainText s) {c : Char} (hc : c ∈ snake s) : c = '_' ∨ (c.toNat < 128 ∧ c.isAlphanum = true) := by
  rcases joined_chars hc with h1 | ⟨w, hw, h1⟩
  · exact .inl h1
  · obtain ⟨v, hv, rfl⟩ := List.mem_map.1 hw
    exact .inr (wordy_lower (words_wordy h hv) c h1)

theorem pascal_wordy {s : Str} (h : PlainText s) : Wordy (pascal s) := wordy_flatten fun w hw => by
  obtain ⟨v, hv, rfl⟩ := List.mem_map.1 hw
  exact wordy_capital (words_wordy h hv)

theorem camel_wordy {s : Str} (h : PlainText s) : Wordy (lowerCamel s) := by
  have hw := @words_wordy s h
  unfold lowerCamel
  cases he : words [] none s with
  | nil => intro c hc; cases hc
  | cons w ws =>
    rw [he] at hw
    refine wordy_append (wordy_lower (hw (by simp))) (wordy_flatten fun v hv => ?_)
    obtain ⟨u, hu, rfl⟩ := List.mem_map.1 hv
    exact wordy_capital (hw (by simp [hu]))

theorem letter_of_wordy {c : Char} {s : Str} (h : Wordy (c :: s)) (hc : c.isAlpha = true) : LetterName CharClass.ascii (c :: s) :=
  ⟨⟨wordy_plain h, c, s, rfl, .inr hc, fun d hd => by
    show (d.isAlphanum || d == '_') = true
    simp [(h d (by simp [hd])).2]⟩, c, s, rfl, hc⟩

theorem lower_alpha {c : Char} (h : c.toNat < 128) (hc : c.isAlpha = true) : c.toLower.isAlpha = true :=
  ascii_all (P := fun c => c.isAlpha = true → c.toLower.isAlpha = true) (by decide +kernel) h hc
theorem upper_alpha {c : Char} (h : c.toNat < 128) (hc : c.isAlpha = true) : c.toUpper.isAlpha = true :=
  ascii_all (P := fun c => c.isAlpha = true → c.toUpper.isAlpha = true) (by decide +kernel) h hc

theorem joined_first (w : Str) (c : Char) (ws : List Str) : ∃ t, joinUnderscore ((c :: w) :: ws) = c :: t := by
  cases ws with
  | nil => exact ⟨w, rfl⟩
  | cons v vs => exact ⟨w ++ '_' :: joinUnderscore (v :: vs), rfl⟩

/-! ## Reading -/

theorem spanC_mem {p : Char → Bool} : ∀ {s : Str} {c : Char}, c ∈ (spanC p s).1 → p c = true ∧ c ∈ s
  | [], c, h => by cases h
  | d :: s, c, h => by
    rw [spanC] at h
    split at h
    · next hd =>
      rcases List.mem_cons.1 h with rfl | h
      · exact ⟨hd, by simp⟩
      · have := spanC_mem h
        exact ⟨this.1, by simp [this.2]⟩
    · cases h

theorem name_of_start {c : Char} {s : Str} (hc : isStart c = true) (h : PlainText (c :: s)) : PlainName CharClass.ascii (c :: (spanC isCont s).1) := by
  refine ⟨fun d hd => ?_, c, _, rfl, ?_, fun d hd => (spanC_mem hd).1⟩
  · rcases List.mem_cons.1 hd with rfl | hd
    · exact h _ (by simp)
    · exact h d (by simp [(spanC_mem hd).2])
  · simp only [isStart, Bool.or_eq_true, beq_iff_eq] at hc
    exact hc.symm

theorem skipLine_sub : ∀ {s : Str} {c : Char}, c ∈ skipLine s → c ∈ s
  | [], c, h => h
  | d :: s, c, h => by
    by_cases hd : d = '\n'
    · subst hd; rw [skipLine] at h; simp [h]
    · rw [skipLine.eq_3 _ _ hd] at h
      simp [skipLine_sub h]

theorem ite_eq {α : Type} {p : Prop} [Decidable p] {x y z : α} (h : (if p then x else y) = z) : (p ∧ x = z) ∨ (¬p ∧ y = z) := by
  by_cases hp : p
  · exact .inl ⟨hp, by rwa [if_pos hp] at h⟩
  · exact .inr ⟨hp, by rwa [if_neg hp] at h⟩

/-- One identifier, in ASCII and without `#`: it is not raw, and starts the text if that starts with a letter. -/
theorem lexToks_name : ∀ (n : Nat) {s : Str} {i rest : Str}, PlainText s → lexToks n s = some ([.ident i], rest) →
    PlainName CharClass.ascii i ∧ ∀ c t, s = c :: t → c.isAlpha = true → ∃ u, i = c :: u
  | 0, s, i, rest, _, h => by cases h
  | n + 1, [], i, rest, _, h => by simp [lexToks] at h
  | n + 1, c :: s, i, rest, hp, h => by
    have hps : PlainText s := fun d hd => hp d (by simp [hd])
    have more : ∀ {t : Tok} {s' : Str}, (lexToks n s').map (fun r => ([t] ++ r.1, r.2)) = some ([.ident i], rest) → t = .ident i := by
      intro t s' h
      cases hl : lexToks n s' with
      | none => rw [hl] at h; cases h
      | some r =>
        rw [hl] at h
        simp only [List.cons_append, List.nil_append, Option.map_some, Option.some.injEq, Prod.mk.injEq, List.cons.injEq] at h
        exact h.1.1
    have notAlpha : ∀ {q : Char → Bool}, q c = true → (∀ d, d.isAlpha = true → q d = false) → ∀ c' t, c :: s = c' :: t → c'.isAlpha = true → ∃ u, i = c' :: u := by
      intro q hq ha c' t e hc'
      cases e
      rw [ha c hc'] at hq
      cases hq
    have alphaNot : ∀ d : Char, d.isAlpha = true → isStart d = true := fun d hd => by simp [isStart, hd]
    rw [lexToks.eq_def] at h
    dsimp only at h
    rcases ite_eq h with ⟨hw, h⟩ | ⟨-, h⟩
    · exact ⟨(lexToks_name n hps h).1, notAlpha (q := Char.isWhitespace) hw fun d hd => (start_not (alphaNot d hd)).1⟩
    rcases ite_eq h with ⟨-, h⟩ | ⟨-, h⟩
    · cases h
    cases hd : delimOf c with
    | some d =>
      rw [hd] at h
      dsimp only at h
      cases hl : lexToks n s with
      | none => rw [hl] at h; cases h
      | some r =>
        rw [hl] at h
        obtain ⟨ts, r⟩ := r
        cases r with
        | nil => cases h
        | cons c' r =>
          dsimp only at h
          rcases ite_eq h with ⟨-, h⟩ | ⟨-, h⟩
          · cases more h
          · cases h
    | none =>
      rw [hd] at h
      dsimp only at h
      rcases ite_eq h with ⟨-, h⟩ | ⟨-, h⟩
      · cases hl : lexStr s with
        | none => rw [hl] at h; cases h
        | some x =>
          rw [hl] at h
          rw [Option.bind_some] at h
          cases more h
      rcases ite_eq h with ⟨hsl, h⟩ | ⟨-, h⟩
      · rw [Bool.and_eq_true] at hsl
        exact ⟨(lexToks_name n (fun d hd => hps d (skipLine_sub hd)) h).1,
          notAlpha (q := fun c => c == '/') hsl.1 fun d hd => (start_not (alphaNot d hd)).2.2.2.2⟩
      rcases ite_eq h with ⟨-, h⟩ | ⟨-, h⟩
      · cases hl : lexRaw 0 (s.drop 1) with
        | none => rw [hl] at h; cases h
        | some x =>
          rw [hl] at h
          rw [Option.bind_some] at h
          cases more h
      rcases ite_eq h with ⟨-, h⟩ | ⟨-, h⟩
      · cases hl : lexRaw 1 (s.drop 2) with
        | none => rw [hl] at h; cases h
        | some x =>
          rw [hl] at h
          rw [Option.bind_some] at h
          cases more h
      rcases ite_eq h with ⟨hr, h⟩ | ⟨-, h⟩
      · rw [Bool.and_eq_true, beq_iff_eq, beq_iff_eq] at hr
        have : '#' ∈ s := List.mem_of_mem_head? (by rw [hr.2]; rfl)
        exact absurd rfl (hps _ this).2
      rcases ite_eq h with ⟨hs, h⟩ | ⟨-, h⟩
      · have := more h
        simp only [Tok.ident.injEq] at this
        subst this
        exact ⟨name_of_start hs hp, fun c' t e _ => by cases e; exact ⟨_, rfl⟩⟩
      rcases ite_eq h with ⟨-, h⟩ | ⟨-, h⟩
      · generalize spanC isCont (c :: s) = sp at h
        match sp with
        | (a, '.' :: d :: s') =>
          dsimp only at h
          rcases ite_eq h with ⟨-, h⟩ | ⟨-, h⟩
          · cases more h
          · cases more h
        | (a, b) =>
          split at h
          · rcases ite_eq h with ⟨-, h⟩ | ⟨-, h⟩
            · cases more h
            · cases more h
          · cases more h
      rcases ite_eq h with ⟨-, h⟩ | ⟨-, h⟩
      · split at h
        · cases more h
        · cases more h
        · cases more h
      rcases ite_eq h with ⟨-, h⟩ | ⟨-, h⟩
      · cases more h
      · cases h

theorem lex_one {s i : Str} (hp : PlainText s) (h : lex s = some [.ident i]) :
    PlainName CharClass.ascii i ∧ ∀ c t, s = c :: t → c.isAlpha = true → ∃ u, i = c :: u := by
  unfold lex at h
  split at h
  · next ts he =>
    cases h
    exact lexToks_name _ hp he
  · cases h

/-- The assumptions of `C82` hold. -/
theorem lite_ascii : AsciiExt ext where
  lawful := CharClass.ascii_lawful
  digits c h := by
    change (c.isAlphanum || c == '_') = true
    simp [Char.isAlphanum, h]
  chars c h := ascii_all (P := fun c => CharClass.ascii.alnum c = true → CharClass.ascii.xidContinue c = true ∧
    (CharClass.ascii.numeric c = false → CharClass.ascii.xidStart c = true)) (by decide +kernel) h
  render := render_plain
  renderIdent _ := rfl
  strRepr s h := quote_plain h
  cases s h := by
    refine ⟨plainText_map (by decide +kernel) h, plainText_map (by decide +kernel) h, ?_, wordy_plain (camel_wordy h), wordy_plain (pascal_wordy h)⟩
    intro c hc
    rcases snake_chars h hc with rfl | h
    · decide
    · exact wordy_plain (s := [c]) (fun d hd => by simp_all) c (by simp)
  names s h := ⟨plainName_map (by decide +kernel) (by decide +kernel) (by decide +kernel) h,
    plainName_map (by decide +kernel) (by decide +kernel) (by decide +kernel) h⟩
  letters s h := by
    have hp := h.1.1
    refine ⟨letterName_map (by decide +kernel) (by decide +kernel) (by decide +kernel) (by decide +kernel) h,
      letterName_map (by decide +kernel) (by decide +kernel) (by decide +kernel) (by decide +kernel) h, ?_, ?_, ?_⟩
    · have hs := @snake_chars s hp
      obtain ⟨-, c, cs, rfl, hc⟩ := h
      obtain ⟨v, ws, hw⟩ := words_first hc cs
      change LetterName CharClass.ascii (snake (c :: cs))
      have he : ∃ t, snake (c :: cs) = c.toLower :: t := by
        unfold snake
        rw [hw]
        exact joined_first _ _ _
      obtain ⟨t, he⟩ := he
      rw [he] at hs ⊢
      have hl := lower_alpha (hp c (by simp)).1 hc
      refine ⟨⟨fun d hd => ?_, c.toLower, t, rfl, .inr hl, fun d hd => ?_⟩, c.toLower, t, rfl, hl⟩
      · rcases hs hd with rfl | h
        · decide
        · exact wordy_plain (s := [d]) (fun d' hd' => by simp_all) d (by simp)
      · change (d.isAlphanum || d == '_') = true
        rcases hs (c := d) (by simp [hd]) with rfl | h
        · rfl
        · simp [h.2]
    · have hs := camel_wordy hp
      obtain ⟨-, c, cs, rfl, hc⟩ := h
      obtain ⟨v, ws, hw⟩ := words_first hc cs
      change LetterName CharClass.ascii (lowerCamel (c :: cs))
      unfold lowerCamel at hs ⊢
      rw [hw] at hs ⊢
      exact letter_of_wordy hs (lower_alpha (hp c (by simp)).1 hc)
    · have hs := pascal_wordy hp
      obtain ⟨-, c, cs, rfl, hc⟩ := h
      obtain ⟨v, ws, hw⟩ := words_first hc cs
      change LetterName CharClass.ascii (pascal (c :: cs))
      unfold pascal at hs ⊢
      rw [hw] at hs ⊢
      exact letter_of_wordy hs (upper_alpha (hp c (by simp)).1 hc)
  lex s i h hl := (lex_one h hl).1
  lexLetter c s i h hc hl := by
    obtain ⟨h1, h2⟩ := lex_one h hl
    obtain ⟨u, rfl⟩ := h2 c s rfl hc
    exact ⟨h1, c, u, rfl, hc⟩

end Verif.Lite
