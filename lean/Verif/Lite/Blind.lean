import Verif.Lite.Local
import Verif.Props.WhenCode
/-!
# Well-formedness does not depend on the choice of names and on the contents of strings

`C18`, `C82` and `C88` assume this of `syn`'s grammar. Here it is proved of the grammar of `Verif/Lite/Rust.lean`: only keywords and the names with a meaning
of their own in some places are special.
-/

namespace Verif.Lite
open Verif Spec Verif.Props

set_option synthInstance.maxSize 2000
set_option synthInstance.maxHeartbeats 200000

/-- Names which are not keywords but mean something in some places. -/
def contextual : List Str := [c! "auto", c! "default", c! "macro_rules", c! "union"]

/-- A keyword, or such a name. -/
def Special (s : Str) : Prop := s ∈ keywords ++ contextual

instance (s : Str) : Decidable (Special s) := inferInstanceAs (Decidable (s ∈ _))

abbrev Same := SameShape Special

/-- The same on both sides. -/
def SameOpt (x y : Option Toks) : Prop := (x = none ∧ y = none) ∨ ∃ a b, x = some a ∧ y = some b ∧ Same a b

theorem SameOpt.none : SameOpt none none := .inl ⟨rfl, rfl⟩
theorem SameOpt.some {a b : Toks} (h : Same a b) : SameOpt (some a) (some b) := .inr ⟨a, b, rfl, rfl, h⟩

class BlindP (p : Par) : Prop where
  blind : ∀ {a b : Toks}, Same a b → SameOpt (p a) (p b)

class BlindB (g : Toks → Bool) : Prop where
  blind : ∀ {a b : Toks}, Same a b → g a = g b

theorem same_length {a b : Toks} (h : Same a b) : a.length = b.length := by
  induction h with
  | nil => rfl
  | same t _ ih => simp [ih]
  | name _ _ _ ih => simp [ih]
  | str _ _ _ _ _ ih => simp [ih]
  | group _ _ _ _ ih => simp [ih]

theorem same_isEmpty {a b : Toks} (h : Same a b) : a.isEmpty = b.isEmpty := by
  have := same_length h
  cases a <;> cases b <;> simp_all

/-! ## Combinators -/

instance : BlindP some := ⟨fun h => .some h⟩
instance blind_none : BlindP (fun _ => none) := ⟨fun _ => .none⟩

instance blind_seq [hp : BlindP p] [hq : BlindP q] : BlindP (seq p q) where
  blind {a b} h := by
    unfold seq
    rcases hp.blind h with ⟨h1, h2⟩ | ⟨x, y, h1, h2, h⟩ <;> rw [h1, h2]
    · exact .none
    · exact hq.blind h

instance blind_opt [hp : BlindP p] : BlindP (opt p) where
  blind {a b} h := by
    unfold opt
    rcases hp.blind h with ⟨h1, h2⟩ | ⟨x, y, h1, h2, h⟩ <;> rw [h1, h2] <;> exact .some h

instance blind_orElse [hp : BlindP p] [hq : BlindP q] : BlindP (orElse p q) where
  blind {a b} h := by
    unfold orElse
    rcases hp.blind h with ⟨h1, h2⟩ | ⟨x, y, h1, h2, h⟩ <;> rw [h1, h2]
    · exact hq.blind h
    · exact .some h

instance : BlindP (oneOf []) := ⟨fun _ => .none⟩
instance blind_oneOf [BlindP p] [BlindP (oneOf ps)] : BlindP (oneOf (p :: ps)) := by rw [oneOf_cons]; infer_instance
instance : BlindP (seqs []) := ⟨fun h => .some h⟩
instance blind_seqs [BlindP p] [BlindP (seqs ps)] : BlindP (seqs (p :: ps)) := by rw [seqs_cons]; infer_instance

instance blind_has [hp : BlindP p] : BlindB (has p) where
  blind {a b} h := by
    unfold has
    rcases hp.blind h with ⟨h1, h2⟩ | ⟨x, y, h1, h2, h⟩ <;> rw [h1, h2] <;> rfl

instance : BlindB always := ⟨fun _ => rfl⟩
instance : BlindB (fun _ => b) := ⟨fun _ => rfl⟩
instance blindB_not [h : BlindB g] : BlindB (fun ts => !g ts) := ⟨fun e => by rw [h.blind e]⟩
instance blindB_and [h : BlindB g] [h' : BlindB g'] : BlindB (fun ts => g ts && g' ts) := ⟨fun e => by rw [h.blind e, h'.blind e]⟩
instance blindB_or [h : BlindB g] [h' : BlindB g'] : BlindB (fun ts => g ts || g' ts) := ⟨fun e => by rw [h.blind e, h'.blind e]⟩
instance blindB_const [h : BlindB g] : BlindB (fun ts => b && g ts) := ⟨fun e => by rw [h.blind e]⟩

instance blind_branch_nil : BlindP (branch []) := ⟨fun _ => .none⟩
instance blind_branch [hg : BlindB g] [hp : BlindP p] [hb : BlindP (branch bs)] : BlindP (branch ((g, p) :: bs)) where
  blind {a b} h := by
    rw [branch, branch, hg.blind h]
    split
    · exact hp.blind h
    · exact hb.blind h

instance blind_ite [hg : BlindB g] [hp : BlindP p] [hq : BlindP q] : BlindP (fun ts => if g ts then p ts else q ts) where
  blind {a b} h := by
    simp only [hg.blind h]
    split
    · exact hp.blind h
    · exact hq.blind h

instance blind_whenP [hp : BlindP p] [hq : BlindP q] : BlindP (whenP p q) where
  blind {a b} h := by
    unfold whenP
    rcases hp.blind h with ⟨h1, h2⟩ | ⟨x, y, h1, h2, h⟩ <;> rw [h1, h2]
    · exact .some h
    · exact hq.blind h

instance blind_manyWhile [BlindP go] [BlindP p] : BlindP (manyWhile go p n) := by
  induction n with
  | zero => exact inferInstanceAs (BlindP some)
  | succ n ih => rw [manyWhile_succ]; infer_instance

/-- Fuel which depends on the length. -/
theorem blind_length {f : Nat → Par} (h : ∀ n, BlindP (f n)) (k : Nat) : BlindP (fun ts => f (ts.length + k) ts) where
  blind {a b} e := by
    simp only [same_length e]
    exact (h _).blind e

instance blind_many [BlindP p] : BlindP (many p) := blind_length (f := manyWhile p p) (fun _ => inferInstance) 0
instance blind_sepBy1 [BlindP sep] [BlindP p] : BlindP (sepBy1 p sep) := by unfold sepBy1; infer_instance

/-! ## Single tokens -/

/-- A parser which reads one token. -/
theorem blind_one {p : Par} {f : Tok → Bool} (h0 : p [] = none) (h1 : ∀ t ts, p (t :: ts) = if f t then some ts else none)
    (hn : ∀ a b, ¬ Special a → ¬ Special b → f (.ident a) = f (.ident b)) (hs : ∀ r v r' v', f (.lit (.str r v)) = f (.lit (.str r' v')))
    (hg : ∀ d x y, Same x y → f (.group d x) = f (.group d y)) : BlindP p where
  blind {a b} h := by
    cases h with
    | nil => rw [h0]; exact .none
    | same t h =>
      rw [h1, h1]
      split
      · exact .some h
      · exact .none
    | name ha hb h =>
      rw [h1, h1, hn _ _ ha hb]
      split
      · exact .some h
      · exact .none
    | str r v r' v' h =>
      rw [h1, h1, hs r v r' v']
      split
      · exact .some h
      · exact .none
    | group d hin h =>
      rw [h1, h1, hg d _ _ hin]
      split
      · exact .some h
      · exact .none

instance blind_pc : BlindP (pc c) :=
  blind_one (f := fun t => match t with | .punct d _ => d == c | _ => false) rfl (fun t ts => by cases t <;> simp [pc])
    (fun _ _ _ _ => rfl) (fun _ _ _ _ => rfl) (fun _ _ _ _ => rfl)

instance blind_pc2 : BlindP (pc2 c d) where
  blind {a b} h := by
    have pcc : BlindP (pc d) := inferInstance
    have key : ∀ ts, pc2 c d ts = match ts with | .punct x true :: ts => if x == c then pc d ts else none | _ => none := by
      intro ts
      unfold pc2 pc
      split
      · simp only
        split <;> split <;> simp_all
      · next h => 
        split
        · next x ts =>
          split
          · cases ts with
            | nil => rfl
            | cons t ts =>
              cases t with
              | punct y j => exact absurd rfl (h x y j ts)
              | _ => rfl
          · rfl
        · rfl
    rw [key, key]
    cases h with
    | nil => exact .none
    | same t h =>
      cases t with
      | punct x j =>
        cases j
        · exact .none
        · simp only
          split
          · exact pcc.blind h
          · exact .none
      | _ => exact .none
    | name => exact .none
    | str => exact .none
    | group => exact .none

class IsSpecial (s : Str) : Prop where
  special : Special s

instance blind_kwP [hs : IsSpecial s] : BlindP (kwP s) :=
  blind_one (f := fun t => match t with | .ident n => n == s | _ => false) rfl (fun t ts => by cases t <;> simp [kwP])
    (fun a b ha hb => by
      have h1 : a ≠ s := fun e => ha (e ▸ hs.special)
      have h2 : b ≠ s := fun e => hb (e ▸ hs.special)
      show (a == s) = (b == s)
      rw [beq_eq_false_iff_ne.2 h1, beq_eq_false_iff_ne.2 h2]) (fun _ _ _ _ => rfl) (fun _ _ _ _ => rfl)

theorem not_keyword {s : Str} (h : ¬ Special s) : s ∉ keywords := fun e => h (by simp [Special, e])

instance blind_identP : BlindP identP :=
  blind_one (f := fun t => match t with | .ident n => !keywords.contains n | _ => false) rfl
    (fun t ts => by cases t <;> simp [identP] <;> split <;> simp_all)
    (fun a b ha hb => by simp [not_keyword ha, not_keyword hb]) (fun _ _ _ _ => rfl) (fun _ _ _ _ => rfl)

instance blind_groupP [h : BlindB ok] : BlindP (groupP d ok) :=
  blind_one (f := fun t => match t with | .group e c => e == d && ok c | _ => false) rfl (fun t ts => by cases t <;> simp [groupP])
    (fun _ _ _ _ => rfl) (fun _ _ _ _ => rfl) (fun e x y hxy => by simp [h.blind hxy])

instance blind_groupAny : BlindP (groupAny d) := by unfold groupAny; infer_instance

instance blind_anyGroup : BlindP anyGroup :=
  blind_one (f := fun t => match t with | .group .none _ => false | .group _ _ => true | _ => false) rfl
    (fun t ts => by
      cases t with
      | group d c => cases d <;> simp [anyGroup]
      | _ => simp [anyGroup])
    (fun _ _ _ _ => rfl) (fun _ _ _ _ => rfl) (fun d _ _ _ => by cases d <;> rfl)

instance blind_litP : BlindP litP :=
  blind_one (f := fun t => match t with | .lit _ => true | _ => false) rfl (fun t ts => by cases t <;> simp [litP])
    (fun _ _ _ _ => rfl) (fun _ _ _ _ => rfl) (fun _ _ _ _ => rfl)

instance blind_litStrP : BlindP litStrP :=
  blind_one (f := fun t => match t with | .lit (.str _ _) => true | _ => false) rfl
    (fun t ts => by
      cases t with
      | lit l => cases l <;> simp [litStrP]
      | _ => simp [litStrP])
    (fun _ _ _ _ => rfl) (fun _ _ _ _ => rfl) (fun _ _ _ _ => rfl)

instance blind_litInt : BlindP (fun ts => match ts with | .lit (.int _ _) :: r => some r | _ => none) :=
  blind_one (f := fun t => match t with | .lit (.int _ _) => true | _ => false) rfl
    (fun t ts => by
      cases t with
      | lit l => cases l <;> simp
      | _ => simp)
    (fun _ _ _ _ => rfl) (fun _ _ _ _ => rfl) (fun _ _ _ _ => rfl)

instance blind_anyIdent : BlindP (fun ts => match ts with | .ident _ :: r => some r | _ => none) :=
  blind_one (f := fun t => match t with | .ident _ => true | _ => false) rfl (fun t ts => by cases t <;> simp)
    (fun _ _ _ _ => rfl) (fun _ _ _ _ => rfl) (fun _ _ _ _ => rfl)

instance blind_anyTok : BlindP (fun ts => match ts with | _ :: r => some r | [] => none) :=
  blind_one (f := fun _ => true) rfl (fun t ts => by simp) (fun _ _ _ _ => rfl) (fun _ _ _ _ => rfl) (fun _ _ _ _ => rfl)

instance blind_lifetimeP : BlindP lifetimeP := by
  have : lifetimeP = seq (pc '\'') (fun ts => match ts with | .ident _ :: r => some r | _ => none) := by
    funext ts
    unfold lifetimeP seq pc
    split
    · simp
    · next h =>
      split
      · next d j ts =>
        split
        · next hd =>
          simp only [beq_iff_eq] at hd
          subst hd
          simp only [Option.bind_some]
          split
          · exact absurd rfl (h _ _ _)
          · rfl
        · rfl
      · rfl
  rw [this]
  infer_instance

/-- A dot not joined to what follows. -/
def dotP : Par
  | .punct '.' false :: ts => some ts
  | _ => none

instance blind_dotP : BlindP dotP :=
  blind_one (f := fun t => match t with | .punct '.' false => true | _ => false) rfl
    (fun t ts => by
      unfold dotP
      split
      · next h => cases h; rfl
      · next h =>
        rw [if_neg]
        split
        · exact absurd rfl (h _)
        · simp)
    (fun _ _ _ _ => rfl) (fun _ _ _ _ => rfl) (fun _ _ _ _ => rfl)

instance blind_dotName : BlindP dotName := by
  have : dotName = seq dotP (fun ts => match ts with | .ident _ :: r => some r | _ => none) := by
    funext ts
    unfold dotName seq dotP
    split
    · simp
    · next h =>
      split
      · next ts =>
        simp only [Option.bind_some]
        split
        · exact absurd rfl (h _ _)
        · rfl
      · rfl
  rw [this]
  infer_instance

instance blind_dotInt : BlindP dotInt := by
  have : dotInt = seq dotP (fun ts => match ts with | .lit (.int _ _) :: r => some r | _ => none) := by
    funext ts
    unfold dotInt seq dotP
    split
    · simp
    · next h =>
      split
      · next ts =>
        simp only [Option.bind_some]
        split
        · exact absurd rfl (h _ _ _)
        · rfl
      · rfl
  rw [this]
  infer_instance

instance blind_pcNot : BlindP (pcNot c d) := by unfold pcNot; infer_instance
instance blindB_eqP : BlindB eqP := by unfold eqP; infer_instance

instance blind_scan [hg : BlindB g] : BlindP (scan g) where
  blind {a b} h := by
    have step : ∀ {t u : Tok} {ts us : Toks}, Same ts us → SameOpt (scan g ts) (scan g us) → SameOpt (scan g (t :: ts)) (scan g (u :: us)) := by
      intro t u ts us h ih
      rw [scan, scan, hg.blind h]
      split
      · exact .some h
      · exact ih
    induction h with
    | nil => exact .none
    | same t h ih => exact step h ih
    | name _ _ h ih => exact step h ih
    | str _ _ _ _ h ih => exact step h ih
    | group _ _ h _ ih => exact step h ih

instance blind_upTo [hg : BlindB g] : BlindP (upTo g n) where
  blind {a b} h := by
    have step : ∀ {n : Nat} {t u : Tok} {ts us : Toks}, Same ts us → SameOpt (upTo g n ts) (upTo g n us) →
        SameOpt (upTo g (n + 1) (t :: ts)) (upTo g (n + 1) (u :: us)) := by
      intro n t u ts us h ih
      rw [upTo, upTo, hg.blind h, same_isEmpty h]
      split
      · exact .some h
      · exact ih
    induction n generalizing a b with
    | zero => exact .none
    | succ n ih =>
      cases h with
      | nil => exact .none
      | same t h => exact step h (ih h)
      | name _ _ h => exact step h (ih h)
      | str _ _ _ _ h => exact step h (ih h)
      | group _ _ h => exact step h (ih h)

instance blind_patUpTo [BlindB g] : BlindP (patUpTo g) := blind_length (f := upTo g) (fun _ => inferInstance) 1

instance blindB_full [hp : BlindP p] : BlindB (full p) where
  blind {a b} h := by
    unfold full
    rcases hp.blind h with ⟨h1, h2⟩ | ⟨x, y, h1, h2, h⟩ <;> rw [h1, h2]
    cases h <;> rfl

instance blindB_commas [hp : BlindP p] : BlindB (commas p n) where
  blind {a b} h := by
    induction n generalizing a b with
    | zero => rfl
    | succ n ih =>
      by_cases ha : a = []
      · subst ha; cases h; rfl
      · have hb : b ≠ [] := by
          rintro rfl
          cases h
          exact ha rfl
        rw [commas.eq_3 _ _ _ ha, commas.eq_3 _ _ _ hb]
        rcases hp.blind h with ⟨h1, h2⟩ | ⟨x, y, h1, h2, h⟩ <;> rw [h1, h2]
        by_cases hx : x = []
        · subst hx; cases h; rfl
        · have hy : y ≠ [] := by
            rintro rfl
            cases h
            exact hx rfl
          have : ∀ z : Toks, z ≠ [] → (match some z with | none => false | some [] => true | some r => match pc ',' r with | some r => commas p n r | none => false) =
              match pc ',' z with | some r => commas p n r | none => false := by
            intro z hz
            cases z with
            | nil => exact absurd rfl hz
            | cons t z => rfl
          refine (this x hx).trans (Eq.trans ?_ (this y hy).symm)
          rcases (blind_pc (c := ',')).blind h with ⟨h1, h2⟩ | ⟨x, y, h1, h2, h⟩ <;> rw [h1, h2]
          exact ih h

instance blindB_commaList [BlindP p] : BlindB (commaList p) where
  blind {a b} h := by
    unfold commaList
    rw [same_length h]
    exact blindB_commas.blind h

/-! ## The grammar -/

instance : IsSpecial (c! "Self") := ⟨by decide⟩
instance : IsSpecial (c! "_") := ⟨by decide⟩
instance : IsSpecial (c! "as") := ⟨by decide⟩
instance : IsSpecial (c! "async") := ⟨by decide⟩
instance : IsSpecial (c! "auto") := ⟨by decide⟩
instance : IsSpecial (c! "break") := ⟨by decide⟩
instance : IsSpecial (c! "const") := ⟨by decide⟩
instance : IsSpecial (c! "continue") := ⟨by decide⟩
instance : IsSpecial (c! "crate") := ⟨by decide⟩
instance : IsSpecial (c! "default") := ⟨by decide⟩
instance : IsSpecial (c! "dyn") := ⟨by decide⟩
instance : IsSpecial (c! "else") := ⟨by decide⟩
instance : IsSpecial (c! "enum") := ⟨by decide⟩
instance : IsSpecial (c! "extern") := ⟨by decide⟩
instance : IsSpecial (c! "false") := ⟨by decide⟩
instance : IsSpecial (c! "fn") := ⟨by decide⟩
instance : IsSpecial (c! "for") := ⟨by decide⟩
instance : IsSpecial (c! "if") := ⟨by decide⟩
instance : IsSpecial (c! "impl") := ⟨by decide⟩
instance : IsSpecial (c! "in") := ⟨by decide⟩
instance : IsSpecial (c! "let") := ⟨by decide⟩
instance : IsSpecial (c! "loop") := ⟨by decide⟩
instance : IsSpecial (c! "macro_rules") := ⟨by decide⟩
instance : IsSpecial (c! "match") := ⟨by decide⟩
instance : IsSpecial (c! "mod") := ⟨by decide⟩
instance : IsSpecial (c! "move") := ⟨by decide⟩
instance : IsSpecial (c! "mut") := ⟨by decide⟩
instance : IsSpecial (c! "pub") := ⟨by decide⟩
instance : IsSpecial (c! "return") := ⟨by decide⟩
instance : IsSpecial (c! "self") := ⟨by decide⟩
instance : IsSpecial (c! "static") := ⟨by decide⟩
instance : IsSpecial (c! "struct") := ⟨by decide⟩
instance : IsSpecial (c! "super") := ⟨by decide⟩
instance : IsSpecial (c! "trait") := ⟨by decide⟩
instance : IsSpecial (c! "true") := ⟨by decide⟩
instance : IsSpecial (c! "type") := ⟨by decide⟩
instance : IsSpecial (c! "union") := ⟨by decide⟩
instance : IsSpecial (c! "unsafe") := ⟨by decide⟩
instance : IsSpecial (c! "use") := ⟨by decide⟩
instance : IsSpecial (c! "where") := ⟨by decide⟩
instance : IsSpecial (c! "while") := ⟨by decide⟩

instance blind_visP : BlindP visP := by
  unfold visP
  have : BlindP (fun ts => match ts with
      | .group .paren (.ident n :: _) :: r => if [c! "crate", c! "self", c! "super", c! "in"].contains n then some r else some ts
      | _ => some ts) := by
    have key : ∀ {n : Str}, ¬ Special n → [c! "crate", c! "self", c! "super", c! "in"].contains n = false := by
      intro n hn
      cases h : [c! "crate", c! "self", c! "super", c! "in"].contains n with
      | false => rfl
      | true =>
        simp only [List.contains_eq_mem, List.mem_cons, List.not_mem_nil, or_false, decide_eq_true_eq] at h
        rcases h with rfl | rfl | rfl | rfl <;> exact absurd (by decide) hn
    refine ⟨fun {a b} h => ?_⟩
    cases h with
    | nil => exact .some .nil
    | same t h =>
      have other : SameOpt (some (t :: _)) (some (t :: _)) := .some (.same t h)
      cases t with
      | group d c =>
        cases d with
        | paren =>
          cases c with
          | nil => exact other
          | cons t c =>
            cases t with
            | ident n =>
              dsimp only
              split
              · exact .some h
              · exact other
            | _ => exact other
        | _ => exact other
      | _ => exact other
    | name ha hb h => exact .some (.name ha hb h)
    | str r v r' v' h => exact .some (.str _ _ _ _ h)
    | group d hin h =>
      cases d with
      | paren =>
        cases hin with
        | nil => exact .some (.group _ .nil h)
        | same t hin =>
          cases t with
          | ident n =>
            dsimp only
            split
            · exact .some h
            · exact .some (.group _ (.same _ hin) h)
          | _ => exact .some (.group _ (.same _ hin) h)
        | name ha hb hin =>
          dsimp only
          rw [key ha, key hb]
          exact .some (.group _ (.name ha hb hin) h)
        | str r v r' v' hin => exact .some (.group _ (.str _ _ _ _ hin) h)
        | group d h1 h2 => exact .some (.group _ (.group d h1 h2) h)
      | _ => exact .some (.group _ hin h)
  infer_instance

/-- The parsers one level down. -/
class RecBlind (rec : Cat → Par) : Prop where
  blind : ∀ c, BlindP (rec c)

section
variable {rec : Cat → Par} [hr : RecBlind rec]

instance (priority := low) : BlindP (rec c) := hr.blind c

instance : BlindP outerAttr := by unfold outerAttr; infer_instance
instance : BlindP innerAttr := by unfold innerAttr; infer_instance
instance : BlindP colons := by unfold colons; infer_instance
instance : BlindP ltP := by unfold ltP; infer_instance
instance : BlindP segIdent := by unfold segIdent; infer_instance
instance : BlindP label := by unfold label; infer_instance
instance : BlindP semiP := by unfold semiP; infer_instance
instance : BlindP startsBlock := by unfold startsBlock; infer_instance
instance : BlindP (arrowType rec) := by unfold arrowType; infer_instance
instance : BlindP (argTail rec) := by unfold argTail; infer_instance
instance : BlindP (genericArg rec) := by unfold genericArg; infer_instance

instance blind_genericArgs : BlindP (genericArgs rec n) := by
  induction n with
  | zero => exact inferInstanceAs (BlindP fun _ => none)
  | succ n ih =>
    have : genericArgs rec (n + 1) = branch [(has (pc '>'), pc '>'),
        (always, seq (genericArg rec) (branch [(has (pc ','), seq (pc ',') (genericArgs rec n)), (always, pc '>')]))] := by
      funext ts
      rw [genericArgs]
      simp only [branch, always, if_true]
      rfl
    rw [this]
    infer_instance

instance : BlindP (genericsP rec) := by unfold genericsP; infer_instance
instance : BlindP (segment rec a b) := by unfold segment; infer_instance
instance : BlindP (pathWith rec a b) := by unfold pathWith; infer_instance
instance : BlindP (qself rec a) := by unfold qself; infer_instance
instance : BlindP (boundP rec) := by unfold boundP; infer_instance
instance : BlindP (genericParam rec) := by unfold genericParam; infer_instance

instance blind_genericParamsLoop : BlindP (genericParamsLoop rec n) := by
  induction n with
  | zero => exact inferInstanceAs (BlindP fun _ => none)
  | succ n ih =>
    have : genericParamsLoop rec (n + 1) = orElse (pc '>') (seq (genericParam rec) (branch [(has (pc ','), seq (pc ',') (genericParamsLoop rec n)), (always, pc '>')])) := by
      funext ts
      rw [genericParamsLoop]
      unfold orElse seq
      cases pc '>' ts with
      | some r => rfl
      | none =>
        simp only [Option.none_or]
        congr 1
        funext r
        simp only [branch, always, if_true, has]
        cases pc ',' r <;> rfl
    rw [this]
    infer_instance

instance blind_genericParams : BlindP (genericParams rec) := by
  have h : BlindP (fun ts => genericParamsLoop rec (ts.length + 1) ts) := blind_length (fun _ => inferInstance) 1
  exact inferInstanceAs (BlindP (whenP ltP fun r => genericParamsLoop rec (r.length + 1) r))

instance : BlindP (wherePred rec) := by unfold wherePred; infer_instance

instance blind_wherePreds : BlindP (wherePreds rec n) := by
  induction n with
  | zero => exact inferInstanceAs (BlindP some)
  | succ n ih =>
    have : wherePreds rec (n + 1) = whenP (wherePred rec) (whenP (pc ',') (wherePreds rec n)) := by
      funext ts
      rw [wherePreds]
      rfl
    rw [this]
    infer_instance

instance blind_whereP : BlindP (whereP rec) := by
  have h : BlindP (fun ts => wherePreds rec (ts.length + 0) ts) := blind_length (fun _ => inferInstance) 0
  exact inferInstanceAs (BlindP (whenP (kwP c! "where") fun ts => wherePreds rec (ts.length + 0) ts))

instance : BlindP (typeNoPlusP rec) := by unfold typeNoPlusP; infer_instance
instance : BlindP (typeP rec) := by unfold typeP; infer_instance

/-- Until nothing is left. -/
instance blind_nonEmpty : BlindP (fun ts => if ts.isEmpty then none else some ts) where
  blind {a b} h := by
    simp only [same_isEmpty h]
    split
    · exact .none
    · exact .some h

theorem blindB_all [BlindP p] : BlindB (fun ts => match manyWhile (fun ts => if ts.isEmpty then none else some ts) p ts.length ts with | some [] => true | _ => false) where
  blind {a b} h := by
    have : BlindP (fun ts => manyWhile (fun ts => if ts.isEmpty then none else some ts) p (ts.length + 0) ts) :=
      blind_length (f := manyWhile (fun ts => if ts.isEmpty then none else some ts) p) (fun _ => inferInstance) 0
    rcases this.blind h with ⟨h1, h2⟩ | ⟨x, y, h1, h2, h⟩ <;> simp only [Nat.add_zero] at h1 h2 <;> simp only [h1, h2]
    cases h <;> rfl

instance blindB_blockOk : BlindB (blockOk rec) where
  blind {a b} h := by
    unfold blockOk
    have : BlindP (fun ts => manyWhile innerAttr innerAttr (ts.length + 0) ts) := blind_length (f := manyWhile innerAttr innerAttr) (fun _ => inferInstance) 0
    rcases this.blind h with ⟨h1, h2⟩ | ⟨x, y, h1, h2, h⟩ <;> simp only [Nat.add_zero] at h1 h2 <;> simp only [h1, h2]
    exact (blindB_all (p := rec .stmt)).blind h

instance : BlindP (blockP rec) := by unfold blockP; infer_instance

instance blind_postOps : BlindP (postOps rec n) := by
  induction n with
  | zero => exact inferInstanceAs (BlindP some)
  | succ n ih => rw [postOps]; infer_instance

instance blind_ifP : BlindP (ifP rec n) := by
  induction n with
  | zero => rw [ifP]; infer_instance
  | succ n ih => rw [ifP]; infer_instance

instance : BlindP (blockLike rec) := by unfold blockLike; infer_instance
instance : BlindP (closureP rec) := by unfold closureP; infer_instance
instance blind_ifStruct {b : Bool} [BlindP p] : BlindP (fun ts => if b then p ts else none) := by
  cases b
  · exact inferInstanceAs (BlindP fun _ => none)
  · simpa
instance : BlindP (beginsExpr b) := by unfold beginsExpr; infer_instance
instance : BlindP (optExpr rec b) := by unfold optExpr; infer_instance
instance : BlindP (fieldInit rec) := by unfold fieldInit; infer_instance
instance : BlindP (atom rec b) := by unfold atom; infer_instance
instance : BlindP (operandP rec b) := by unfold operandP; infer_instance
instance : BlindP binop := by
  unfold binop
  simp only [List.map_cons, List.map_nil, List.cons_append, List.nil_append]
  infer_instance
instance : BlindP (rangeEnd rec b) := by unfold rangeEnd; infer_instance
instance blind_binaryP : BlindP (binaryP rec b n) := by
  induction n with
  | zero => exact inferInstanceAs (BlindP some)
  | succ n ih => rw [binaryP]; infer_instance
instance : BlindP (exprWith rec b) := by unfold exprWith; infer_instance

instance : BlindP (sigP rec) := by unfold sigP; infer_instance
instance : BlindP (fieldNamed rec) := by unfold fieldNamed; infer_instance
instance : BlindP (fieldUnnamed rec) := by unfold fieldUnnamed; infer_instance
instance : BlindP (variantP rec) := by unfold variantP; infer_instance
instance blind_manyLen [BlindP go] [BlindP p] : BlindP (fun ts => manyWhile go p ts.length ts) := blind_length (f := manyWhile go p) (fun _ => inferInstance) 0
instance : BlindP (constLike rec) := by unfold constLike; infer_instance

instance blindB_allItems [BlindP p] : BlindB (allItems p) where
  blind {a b} h := by
    unfold allItems
    have : BlindP (fun ts => (many innerAttr ts).bind fun ts => manyWhile (fun ts => if ts.isEmpty then none else some ts) p ts.length ts) :=
      inferInstanceAs (BlindP (seq (many innerAttr) fun ts => manyWhile (fun ts => if ts.isEmpty then none else some ts) p ts.length ts))
    rcases this.blind h with ⟨h1, h2⟩ | ⟨x, y, h1, h2, h⟩ <;> simp only [h1, h2]
    cases h <;> rfl

instance : BlindP (traitItemP rec) := by unfold traitItemP; infer_instance
instance : BlindP (implItemP rec) := by unfold implItemP; infer_instance
instance : BlindP (foreignItemP rec) := by unfold foreignItemP; infer_instance
instance : BlindP (implHead rec) := by unfold implHead; infer_instance
instance blind_useTree : BlindP (useTree n) := by
  induction n with
  | zero => exact inferInstanceAs (BlindP fun _ => none)
  | succ n ih =>
    have : useTree (n + 1) = oneOf [pc '*', groupP .brace (commaList (useTree n)),
      seqs [segIdent, oneOf [seq colons (useTree n), seq (kwP c! "as") (orElse identP (kwP c! "_")), some]]] := by
      funext ts
      rw [useTree]
    rw [this]
    infer_instance
instance blind_useTreeLen : BlindP (fun ts => useTree (ts.length + 10) ts) := blind_length (fun _ => inferInstance) 10
instance : BlindP (itemP rec) := by unfold itemP; infer_instance

theorem bang_brace (z : Option Toks) : (match z with | some (.punct '!' _ :: .group .brace _ :: _) => true | _ => false) =
    ((z.bind (pc '!')).bind (groupAny .brace)).isSome := by
  split
  · rfl
  · next h =>
    match z with
    | none => rfl
    | some [] => rfl
    | some (.punct c j :: ts) =>
      by_cases hc : c = '!'
      · subst hc
        match ts with
        | .group .brace b :: ts => exact absurd rfl (h _ _ _)
        | .group .paren b :: ts => rfl
        | .group .bracket b :: ts => rfl
        | .group .none b :: ts => rfl
        | [] => rfl
        | .ident _ :: ts => rfl
        | .lit _ :: ts => rfl
        | .punct _ _ :: ts => rfl
      · simp [pc, hc]
    | some (.ident _ :: ts) => rfl
    | some (.lit _ :: ts) => rfl
    | some (.group _ _ :: ts) => rfl

/-- A block, or a macro in braces. -/
instance blindB_noSemi : BlindB (noSemi rec) where
  blind {a b} h := by
    unfold noSemi
    rw [(inferInstance : BlindB (has (blockLike rec))).blind h]
    congr 1
    refine (bang_brace _).trans (Eq.trans ?_ (bang_brace _).symm)
    exact (inferInstance : BlindB (has (seq (seq (rec .exprPath) (pc '!')) (groupAny .brace)))).blind h

/-- An expression at the end or before a semicolon. -/
def exprEnd (rec : Cat → Par) : Par := seq (rec .expr) fun r => if r.isEmpty then some r else semiP r

instance : BlindP (exprEnd rec) where
  blind {a b} h := by
    unfold exprEnd seq
    rcases (hr.blind .expr).blind h with ⟨h1, h2⟩ | ⟨x, y, h1, h2, h⟩ <;> simp only [h1, h2]
    · exact .none
    · simp only [Option.bind_some, same_isEmpty h]
      split
      · exact .some h
      · exact (inferInstance : BlindP semiP).blind h

/-- Whether `.` follows. -/
theorem blind_dot {x y : Toks} (h : Same x y) : (∃ r r', x = .punct '.' false :: r ∧ y = .punct '.' false :: r') ∨
    ((∀ r, x ≠ .punct '.' false :: r) ∧ ∀ r, y ≠ .punct '.' false :: r) := by
  cases h with
  | nil => exact .inr ⟨by simp, by simp⟩
  | same t h =>
    by_cases ht : t = .punct '.' false
    · exact .inl ⟨_, _, by rw [ht], by rw [ht]⟩
    · exact .inr ⟨by simp [ht], by simp [ht]⟩
  | name => exact .inr ⟨by simp, by simp⟩
  | str => exact .inr ⟨by simp, by simp⟩
  | group => exact .inr ⟨by simp, by simp⟩

/-- A statement which is a block or a macro, or an expression that begins with one. -/
def blockStmt (rec : Cat → Par) : Par := fun ts =>
  match orElse (blockLike rec) (seqs [rec .exprPath, pc '!', anyGroup]) ts with
  | some r => match r with
    | .punct '.' false :: _ => exprEnd rec ts
    | _ => some ((semiP r).getD r)
  | none => none

instance : BlindP (blockStmt rec) where
  blind {a b} h := by
    unfold blockStmt
    rcases (inferInstance : BlindP (orElse (blockLike rec) (seqs [rec .exprPath, pc '!', anyGroup]))).blind h with ⟨h1, h2⟩ | ⟨x, y, h1, h2, h'⟩ <;>
      simp only [h1, h2]
    · exact .none
    · rcases blind_dot h' with ⟨r, r', rfl, rfl⟩ | ⟨hx, hy⟩
      · exact (inferInstance : BlindP (exprEnd rec)).blind h
      · have key : ∀ (z : Toks) (e : Option Toks), (∀ r, z ≠ .punct '.' false :: r) →
            (match z with | .punct '.' false :: _ => e | _ => some ((semiP z).getD z)) = opt semiP z := by
          intro z e hz
          split
          · exact absurd rfl (hz _)
          · rfl
        rw [key x _ hx, key y _ hy]
        exact (inferInstance : BlindP (opt semiP)).blind h'

instance blind_stmtP : BlindP (stmtP rec) := by
  have : stmtP rec = oneOf [semiP,
      seqs [many outerAttr, kwP c! "let", patUpTo (fun ts => eqP ts || has semiP ts || (has (pc ':') ts && !has colons ts)),
        whenP (pc ':') (rec .type), whenP (pc '=') (rec .expr), whenP (kwP c! "else") (blockP rec), semiP],
      itemP rec,
      seqs [many outerAttr, fun ts => if noSemi rec ts then blockStmt rec ts else exprEnd rec ts]] := rfl
  rw [this]
  infer_instance

end

instance recBlind_parse (n : Nat) : RecBlind (parse n) where
  blind := by
    induction n with
    | zero => intro c; rw [parse]; infer_instance
    | succ n ih =>
      have : RecBlind (parse n) := ⟨ih⟩
      intro c
      cases c <;> (simp only [parse]; infer_instance)

instance : RecBlind rust := recBlind_parse fuel

theorem blind_meta : BlindB metaOk where
  blind {a b} h := by
    unfold metaOk
    rcases (inferInstance : BlindP (rust .exprPath)).blind h with ⟨h1, h2⟩ | ⟨x, y, h1, h2, h⟩ <;> simp only [h1, h2]
    have hx : BlindB (full (rust .expr)) := inferInstance
    cases h with
    | nil => rfl
    | same t h =>
      cases t with
      | group d c => cases h <;> rfl
      | punct c j =>
        split
        · next he => cases he
        · next he => cases he
        · next he =>
          cases he
          exact hx.blind h
        · next h1 h2 h3 =>
          split
          · next he => cases he
          · next he => cases he
          · next he => cases he; exact absurd rfl (h3 _ _)
          · rfl
      | _ => rfl
    | name => rfl
    | str => rfl
    | group d hin h => cases h <;> rfl

/-- Names and strings do not matter. -/
theorem lite_blind : BlindGrammar Special syn.toGrammar where
  node k a b h := by
    have : BlindB (validNode k) := by cases k <;> (simp only [validNode]; infer_instance)
    exact this.blind h
  metas a b h := blind_meta.blind h
  block a b h := by
    have key : ∀ {x y : Toks}, Same x y → (parseBlock x).isSome = (parseBlock y).isSome := by
      intro x y h
      unfold parseBlock goodBlock
      rw [(inferInstance : BlindB (has innerAttr)).blind h, (inferInstance : BlindB (blockOk rust)).blind h]
      split <;> rfl
    have two : ∀ (t u : Tok) (ts : Toks), syn.toGrammar.validBlock (t :: u :: ts) = false := by
      intro t u ts
      unfold Grammar.validBlock
      split
      · next he => cases he
      · rfl
    cases h with
    | nil => rfl
    | same t h => cases h <;> first | rfl | rw [two, two]
    | name _ _ h => cases h <;> first | rfl | rw [two, two]
    | str _ _ _ _ h => cases h <;> first | rfl | rw [two, two]
    | group d hin h =>
      cases h with
      | nil => cases d <;> first | rfl | exact key hin
      | _ => rw [two, two]

end Verif.Lite
