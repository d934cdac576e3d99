import Verif.Lite.Rust
/-!
# Parsers of paths, types and expressions do not look beyond a separator

The theorems about separators assume this of `syn`'s grammar (`StopsAtSep` and others). Here it is shown of the grammar of `Verif/Lite/Rust.lean`: a
parser that can read the beginning of some text reads the same if a separator and anything else come after it, and no parser ends with a separator.
-/

namespace Verif.Lite
open Verif

set_option synthInstance.maxSize 2000
set_option synthInstance.maxHeartbeats 200000

/-! ## Notions -/

/-- `,` and `;`. -/
def isSep : Tok → Bool
  | .punct c _ => c == ',' || c == ';'
  | _ => false

def isBrace : Tok → Bool
  | .group .brace _ => true
  | _ => false

/-- The end, or a separator and anything. -/
inductive Tail : Toks → Prop
  | nil : Tail []
  | sep {t : Tok} (h : isSep t = true) (r : Toks) : Tail (t :: r)

/-- What is read: not ending with a separator, nor with a separator and a block. Given in reverse. -/
def endOkRev : Toks → Bool
  | [] => true
  | t :: ts => !isSep t && !(isBrace t && (ts.head?.map isSep).getD false)

def EndOk (c : Toks) : Prop := endOkRev c.reverse = true

theorem EndOk.nil : EndOk [] := rfl

theorem EndOk.append {a b : Toks} (ha : EndOk a) (hb : EndOk b) : EndOk (a ++ b) := by
  unfold EndOk at *
  rw [List.reverse_append]
  cases hr : b.reverse with
  | nil => simpa using ha
  | cons t ts =>
    rw [hr] at hb
    cases ts with
    | nil =>
      simp only [endOkRev, List.head?_nil, Option.map_none, Option.getD_none, Bool.and_false, Bool.not_false, Bool.and_true] at hb
      simp only [List.singleton_append, endOkRev, hb, Bool.true_and]
      cases hra : a.reverse with
      | nil => simp
      | cons s ss =>
        rw [hra] at ha
        simp only [endOkRev, Bool.and_eq_true, Bool.not_eq_true'] at ha
        simp [ha.1]
    | cons s ss => simpa [endOkRev] using hb

/-- A token after which anything may come before. -/
def Hard (t : Tok) : Prop := isSep t = false ∧ isBrace t = false

theorem Hard.endOk {t : Tok} (h : Hard t) (c : Toks) : EndOk (c ++ [t]) := by
  unfold EndOk; simp [endOkRev, h.1, h.2]

theorem endOk_one {t : Tok} (h : isSep t = false) : EndOk [t] := by
  unfold EndOk; simp [endOkRev, h]

/-- What a parser reads is a beginning of the text that ends well. -/
def Sfx (p : Par) : Prop := ∀ ts r, p ts = some r → ∃ c, ts = c ++ r ∧ EndOk c

/-- More text after a separator does not matter. -/
class StrictP (p : Par) : Prop where
  strict : ∀ u τ, Tail τ → p (u ++ τ) = (p u).map (· ++ τ)
  sfx : Sfx p

/-- The same for a parser that may read across the separator: what it reads on this side of it does not depend on what is on the other. -/
class GoodP (p : Par) : Prop where
  fwd : ∀ u τ r, Tail τ → p u = some r → p (u ++ τ) = some (r ++ τ)
  bwd : ∀ u τ r, Tail τ → p (u ++ τ) = some (r ++ τ) → p u = some r
  sfx : Sfx p

/-- A condition that does not depend on it. -/
class InsensP (g : Toks → Bool) : Prop where
  insens : ∀ u τ, Tail τ → g (u ++ τ) = g u

/-- What is read ends with a token which is neither a separator nor a block. -/
class ClosesP (p : Par) : Prop where
  closes : ∀ ts r, p ts = some r → ∃ c t, ts = c ++ t :: r ∧ Hard t

instance (priority := low) [h : StrictP p] : GoodP p where
  fwd u τ r ht hp := by rw [h.strict u τ ht, hp]; rfl
  bwd u τ r ht hp := by
    rw [h.strict u τ ht] at hp
    cases hu : p u with
    | none => rw [hu] at hp; cases hp
    | some x => rw [hu] at hp; simp only [Option.map_some, Option.some.injEq, List.append_cancel_right_eq] at hp; rw [hp]
  sfx := h.sfx

theorem ClosesP.sfx [h : ClosesP p] : Sfx p := fun ts r hp => by
  obtain ⟨c, t, rfl, ht⟩ := h.closes ts r hp
  exact ⟨c ++ [t], by simp, ht.endOk c⟩

/-! ## Combinators -/

theorem sfx_seq {p q : Par} (hp : Sfx p) (hq : Sfx q) : Sfx (seq p q) := by
  intro ts r h
  unfold seq at h
  cases hpt : p ts with
  | none => rw [hpt] at h; cases h
  | some x =>
    rw [hpt] at h
    obtain ⟨c, rfl, hc⟩ := hp _ _ hpt
    obtain ⟨d, rfl, hd⟩ := hq _ _ h
    exact ⟨c ++ d, by simp, hc.append hd⟩

instance strict_some : StrictP some where
  strict u τ _ := rfl
  sfx ts r h := by cases h; exact ⟨[], rfl, .nil⟩

instance strict_seq [hp : StrictP p] [hq : StrictP q] : StrictP (seq p q) where
  strict u τ ht := by
    unfold seq
    rw [hp.strict u τ ht]
    cases p u with
    | none => rfl
    | some x => simp only [Option.map_some, Option.bind_some]; exact hq.strict x τ ht
  sfx := sfx_seq hp.sfx hq.sfx

instance good_seq [hp : GoodP p] [hq : GoodP q] : GoodP (seq p q) where
  fwd u τ r ht h := by
    unfold seq at h ⊢
    cases hu : p u with
    | none => rw [hu] at h; cases h
    | some x => rw [hu] at h; rw [hp.fwd u τ x ht hu]; exact hq.fwd x τ r ht h
  bwd u τ r ht h := by
    unfold seq at h ⊢
    cases hu : p (u ++ τ) with
    | none => rw [hu] at h; cases h
    | some x =>
      rw [hu] at h
      obtain ⟨c, rfl, -⟩ := hq.sfx _ _ h
      rw [← List.append_assoc] at hu h
      rw [hp.bwd u τ _ ht hu]
      exact hq.bwd _ τ r ht h
  sfx := sfx_seq hp.sfx hq.sfx

instance strict_opt [hp : StrictP p] : StrictP (opt p) where
  strict u τ ht := by
    unfold opt
    rw [hp.strict u τ ht]
    cases p u <;> rfl
  sfx ts r h := by
    unfold opt at h
    cases hu : p ts with
    | none => rw [hu] at h; cases h; exact ⟨[], rfl, .nil⟩
    | some x => rw [hu] at h; cases h; exact hp.sfx _ _ hu

instance strict_orElse [hp : StrictP p] [hq : StrictP q] : StrictP (orElse p q) where
  strict u τ ht := by
    unfold orElse
    rw [hp.strict u τ ht, hq.strict u τ ht]
    cases p u <;> rfl
  sfx ts r h := by
    unfold orElse at h
    cases hu : p ts with
    | none => rw [hu] at h; exact hq.sfx _ _ h
    | some x => rw [hu] at h; cases h; exact hp.sfx _ _ hu

instance strict_oneOf_nil : StrictP (oneOf []) where
  strict u τ _ := rfl
  sfx ts r h := by cases h

theorem oneOf_cons (p : Par) (ps : List Par) : oneOf (p :: ps) = orElse p (oneOf ps) := by
  funext ts
  simp only [oneOf, orElse, List.findSome?_cons]
  cases p ts <;> rfl

instance strict_oneOf [StrictP p] [StrictP (oneOf ps)] : StrictP (oneOf (p :: ps)) := by rw [oneOf_cons]; infer_instance

theorem seqs_none (ps : List Par) : ps.foldl (fun o p => o.bind p) (none : Option Toks) = none := by
  induction ps with
  | nil => rfl
  | cons p ps ih => exact ih

theorem seqs_cons (p : Par) (ps : List Par) : seqs (p :: ps) = seq p (seqs ps) := by
  funext ts
  unfold seqs seq
  simp only [List.foldl_cons, Option.bind_some]
  cases p ts with
  | none => exact seqs_none ps
  | some x => rfl

theorem seqs_nil : seqs [] = some := rfl

instance : StrictP (seqs []) := strict_some
instance strict_seqs [StrictP p] [StrictP (seqs ps)] : StrictP (seqs (p :: ps)) := by rw [seqs_cons]; infer_instance
instance good_seqs [GoodP p] [GoodP (seqs ps)] : GoodP (seqs (p :: ps)) := by rw [seqs_cons]; infer_instance

instance good_branch_nil : GoodP (branch []) where
  fwd u τ r _ h := by cases h
  bwd u τ r _ h := by cases h
  sfx ts r h := by cases h

instance good_branch [hg : InsensP g] [hp : GoodP p] [hb : GoodP (branch bs)] : GoodP (branch ((g, p) :: bs)) where
  fwd u τ r ht h := by
    rw [branch] at h ⊢
    rw [hg.insens u τ ht]
    split
    · next hu => rw [if_pos hu] at h; exact hp.fwd u τ r ht h
    · next hu => rw [if_neg hu] at h; exact hb.fwd u τ r ht h
  bwd u τ r ht h := by
    rw [branch] at h ⊢
    rw [hg.insens u τ ht] at h
    split
    · next hu => rw [if_pos hu] at h; exact hp.bwd u τ r ht h
    · next hu => rw [if_neg hu] at h; exact hb.bwd u τ r ht h
  sfx ts r h := by
    rw [branch] at h
    split at h
    · exact hp.sfx _ _ h
    · exact hb.sfx _ _ h

instance good_whenP [hp : StrictP p] [hq : GoodP q] : GoodP (whenP p q) where
  fwd u τ r ht h := by
    unfold whenP at h ⊢
    rw [hp.strict u τ ht]
    cases hu : p u with
    | none => rw [hu] at h; cases h; rfl
    | some x => rw [hu] at h; exact hq.fwd _ τ r ht h
  bwd u τ r ht h := by
    unfold whenP at h ⊢
    rw [hp.strict u τ ht] at h
    cases hu : p u with
    | none =>
      rw [hu] at h
      simp only [Option.map_none, Option.some.injEq, List.append_cancel_right_eq] at h
      rw [h]
    | some x => rw [hu] at h; exact hq.bwd _ τ r ht h
  sfx ts r h := by
    unfold whenP at h
    cases hu : p ts with
    | none => rw [hu] at h; cases h; exact ⟨[], rfl, .nil⟩
    | some x => rw [hu] at h; exact sfx_seq hp.sfx hq.sfx ts r (by unfold seq; rw [hu]; exact h)

instance insens_has [hp : StrictP p] : InsensP (has p) where
  insens u τ ht := by unfold has; rw [hp.strict u τ ht]; cases p u <;> rfl

instance : InsensP always := ⟨fun _ _ _ => rfl⟩
instance : InsensP (fun _ => b) := ⟨fun _ _ _ => rfl⟩
instance [h : InsensP g] : InsensP (fun ts => b && g ts) := ⟨fun u τ ht => by rw [h.insens u τ ht]⟩
instance insens_not [h : InsensP g] : InsensP (fun ts => !g ts) := ⟨fun u τ ht => by rw [h.insens u τ ht]⟩
instance insens_and [h : InsensP g] [h' : InsensP g'] : InsensP (fun ts => g ts && g' ts) := ⟨fun u τ ht => by rw [h.insens u τ ht, h'.insens u τ ht]⟩

/-- No parser of the first, if a condition holds. -/
instance strict_unless [hg : InsensP g] [hp : StrictP p] : StrictP (fun ts => if g ts then none else p ts) where
  strict u τ ht := by
    simp only [hg.insens u τ ht]
    split
    · rfl
    · exact hp.strict u τ ht
  sfx ts r h := by
    simp only at h
    split at h
    · cases h
    · exact hp.sfx _ _ h

theorem manyWhile_succ (go p : Par) (n : Nat) : manyWhile go p (n + 1) = branch [(has go, seq p (manyWhile go p n)), (always, some)] := by
  funext ts
  rw [manyWhile]
  simp only [branch, always, if_true]
  rfl

instance good_manyWhile [StrictP go] [GoodP p] : GoodP (manyWhile go p n) := by
  induction n with
  | zero => exact inferInstanceAs (GoodP some)
  | succ n ih => rw [manyWhile_succ]; infer_instance

instance good_sepBy1 [StrictP sep] [GoodP p] : GoodP (sepBy1 p sep) := by unfold sepBy1; infer_instance

/-- A parser which reads one token. -/
theorem strict_one {p : Par} {f : Tok → Bool} (h0 : p [] = none) (h1 : ∀ t ts, p (t :: ts) = if f t then some ts else none)
    (hf : ∀ t, isSep t = true → f t = false) : StrictP p where
  strict u τ ht := by
    cases u with
    | nil =>
      rw [h0]
      cases ht with
      | nil => exact h0
      | sep hs r => simp [h1, hf _ hs]
    | cons t u => rw [List.cons_append, h1, h1]; split <;> rfl
  sfx ts r h := by
    cases ts with
    | nil => rw [h0] at h; cases h
    | cons t ts =>
      rw [h1] at h
      split at h
      · next ht =>
        cases h
        refine ⟨[t], rfl, endOk_one ?_⟩
        cases hs : isSep t with
        | false => rfl
        | true => rw [hf t hs] at ht; cases ht
      · cases h

/-- A parser which reads two tokens. -/
theorem strict_two {p : Par} {f : Tok → Tok → Bool} (h0 : p [] = none) (h1 : ∀ t, p [t] = none) (h2 : ∀ s t ts, p (s :: t :: ts) = if f s t then some ts else none)
    (hf : ∀ s t, isSep s = true ∨ isSep t = true → f s t = false) : StrictP p where
  strict u τ ht := by
    match u with
    | [] =>
      rw [h0]
      cases ht with
      | nil => exact h0
      | @sep t hs r =>
        cases r with
        | nil => simp [h1]
        | cons s r => simp [h2, hf t s (.inl hs)]
    | [s] =>
      rw [h1]
      cases ht with
      | nil => exact h1 s
      | @sep t hs r => simp [h2, hf s t (.inr hs)]
    | s :: t :: u => simp only [List.cons_append, h2]; split <;> rfl
  sfx ts r h := by
    match ts with
    | [] => rw [h0] at h; cases h
    | [t] => rw [h1] at h; cases h
    | s :: t :: ts =>
      rw [h2] at h
      split at h
      · next ht =>
        cases h
        refine ⟨[s, t], rfl, (endOk_one (t := s) ?_).append (endOk_one (t := t) ?_)⟩
        · cases hs : isSep s with
          | false => rfl
          | true => rw [hf s t (.inl hs)] at ht; cases ht
        · cases hs : isSep t with
          | false => rfl
          | true => rw [hf s t (.inr hs)] at ht; cases ht
      · cases h

/-- A character which is no separator. -/
class NotSep (c : Char) : Prop where
  ne : (c == ',' || c == ';') = false

theorem sep_punct {d : Char} {j : Bool} : isSep (.punct d j) = (d == ',' || d == ';') := rfl

instance strict_pc [hc : NotSep c] : StrictP (pc c) :=
  strict_one (f := fun t => match t with | .punct d _ => d == c | _ => false) rfl
    (fun t ts => by cases t <;> simp [pc])
    (fun t ht => by
      cases t with
      | punct d j =>
        simp only [sep_punct] at ht
        cases hd : d == c with
        | false => exact hd
        | true => rw [eq_of_beq hd, hc.ne] at ht; cases ht
      | _ => rfl)

instance strict_pc2 [hc : NotSep c] [hd : NotSep d] : StrictP (pc2 c d) :=
  strict_two (f := fun s t => match s, t with | .punct a true, .punct b _ => a == c && b == d | _, _ => false) rfl
    (fun t => by cases t with | punct a j => cases j <;> rfl | _ => rfl)
    (fun s t ts => by
      cases s with
      | punct a j => cases j <;> cases t <;> simp [pc2]
      | _ => simp [pc2])
    (fun s t h => by
      cases s with
      | punct a j =>
        cases j
        · rfl
        · cases t with
          | punct b k =>
            simp only [sep_punct] at h
            simp only
            cases ha : a == c with
            | false => rfl
            | true =>
              cases hb : b == d with
              | false => rfl
              | true =>
                rw [eq_of_beq ha, eq_of_beq hb, hc.ne, hd.ne] at h
                simp at h
          | _ => rfl
      | _ => rfl)

instance strict_kwP : StrictP (kwP s) :=
  strict_one (f := fun t => match t with | .ident n => n == s | _ => false) rfl
    (fun t ts => by cases t <;> simp [kwP])
    (fun t ht => by cases t <;> first | rfl | cases ht)

instance strict_identP : StrictP identP :=
  strict_one (f := fun t => match t with | .ident n => !keywords.contains n | _ => false) rfl
    (fun t ts => by cases t <;> simp [identP] <;> split <;> simp_all)
    (fun t ht => by cases t <;> first | rfl | cases ht)

instance strict_groupP : StrictP (groupP d ok) :=
  strict_one (f := fun t => match t with | .group e c => e == d && ok c | _ => false) rfl
    (fun t ts => by cases t <;> simp [groupP])
    (fun t ht => by cases t <;> first | rfl | cases ht)

instance strict_groupAny : StrictP (groupAny d) := by unfold groupAny; infer_instance

instance strict_anyGroup : StrictP anyGroup :=
  strict_one (f := fun t => match t with | .group .none _ => false | .group _ _ => true | _ => false) rfl
    (fun t ts => by
      cases t with
      | group d c => cases d <;> simp [anyGroup]
      | _ => simp [anyGroup])
    (fun t ht => by cases t <;> first | rfl | cases ht)

instance strict_litP : StrictP litP :=
  strict_one (f := fun t => match t with | .lit _ => true | _ => false) rfl
    (fun t ts => by cases t <;> simp [litP])
    (fun t ht => by cases t <;> first | rfl | cases ht)

instance strict_lifetimeP : StrictP lifetimeP :=
  strict_two (f := fun s t => match s, t with | .punct '\'' _, .ident _ => true | _, _ => false) rfl
    (fun t => by unfold lifetimeP; split <;> simp_all)
    (fun s t ts => by
      unfold lifetimeP
      split
      · simp_all
      · next h => rw [if_neg]; split <;> simp_all)
    (fun s t h => by
      split
      · simp [isSep] at h
      · rfl)

instance strict_dotName : StrictP dotName :=
  strict_two (f := fun s t => match s, t with | .punct '.' false, .ident _ => true | _, _ => false) rfl
    (fun t => by unfold dotName; split <;> simp_all)
    (fun s t ts => by
      unfold dotName
      split
      · simp_all
      · next h => rw [if_neg]; split <;> simp_all)
    (fun s t h => by
      split
      · simp [isSep] at h
      · rfl)

instance strict_dotInt : StrictP dotInt :=
  strict_two (f := fun s t => match s, t with | .punct '.' false, .lit (.int _ _) => true | _, _ => false) rfl
    (fun t => by unfold dotInt; split <;> simp_all)
    (fun s t ts => by
      unfold dotInt
      split
      · simp_all
      · next h => rw [if_neg]; split <;> simp_all)
    (fun s t h => by
      split
      · simp [isSep] at h
      · rfl)

instance strict_pcNot [NotSep c] [NotSep d] : StrictP (pcNot c d) := by unfold pcNot; infer_instance

instance : NotSep '<' := ⟨rfl⟩
instance : NotSep '>' := ⟨rfl⟩
instance : NotSep '=' := ⟨rfl⟩
instance : NotSep '-' := ⟨rfl⟩
instance : NotSep ':' := ⟨rfl⟩
instance : NotSep '&' := ⟨rfl⟩
instance : NotSep '*' := ⟨rfl⟩
instance : NotSep '!' := ⟨rfl⟩
instance : NotSep '?' := ⟨rfl⟩
instance : NotSep '+' := ⟨rfl⟩
instance : NotSep '|' := ⟨rfl⟩
instance : NotSep '.' := ⟨rfl⟩
instance : NotSep '/' := ⟨rfl⟩
instance : NotSep '%' := ⟨rfl⟩
instance : NotSep '^' := ⟨rfl⟩

instance insens_eqP : InsensP eqP := by unfold eqP; infer_instance

/-! ## Patterns, which are not checked: everything up to a token -/

/-- The condition does not hold at the end. -/
class NotAtEnd (g : Toks → Bool) : Prop where
  nil : g [] = false

instance : NotAtEnd (has (kwP s)) := ⟨rfl⟩
instance : NotAtEnd (has (pc c)) := ⟨rfl⟩
instance : NotAtEnd eqP := ⟨rfl⟩

theorem scan_shorter {g : Toks → Bool} : ∀ {ts r : Toks}, scan g ts = some r → r.length < ts.length ∧ ∃ c, ts = c ++ r
  | [], r, h => by cases h
  | t :: ts, r, h => by
    rw [scan] at h
    split at h
    · cases h; exact ⟨Nat.lt_succ_self _, [t], rfl⟩
    · obtain ⟨h1, c, h2⟩ := scan_shorter h
      exact ⟨Nat.lt_succ_of_lt h1, t :: c, by rw [h2]; rfl⟩

theorem scan_fwd {g : Toks → Bool} [hg : InsensP g] {τ : Toks} (ht : Tail τ) : ∀ {u r : Toks}, scan g u = some r → scan g (u ++ τ) = some (r ++ τ)
  | [], r, h => by cases h
  | t :: u, r, h => by
    rw [scan] at h
    rw [List.cons_append, scan, hg.insens u τ ht]
    split at h
    · next hu => cases h; rw [if_pos hu]
    · next hu => rw [if_neg hu]; exact scan_fwd ht h

theorem scan_bwd {g : Toks → Bool} [hg : InsensP g] {τ : Toks} (ht : Tail τ) : ∀ {u r : Toks}, scan g (u ++ τ) = some (r ++ τ) → scan g u = some r
  | [], r, h => by
    have := (scan_shorter h).1
    simp only [List.nil_append, List.length_append] at this
    omega
  | t :: u, r, h => by
    rw [List.cons_append, scan, hg.insens u τ ht] at h
    rw [scan]
    split at h
    · next hu => rw [if_pos hu]; simpa using h
    · next hu => rw [if_neg hu]; exact scan_bwd ht h

instance closes_kwP : ClosesP (kwP s) where
  closes ts r h := by
    match ts, h with
    | .ident n :: ts, h =>
      simp only [kwP] at h
      split at h
      · cases h; exact ⟨[], _, rfl, rfl, rfl⟩
      · cases h

instance closes_pc [hc : NotSep c] : ClosesP (pc c) where
  closes ts r h := by
    match ts, h with
    | .punct d j :: ts, h =>
      simp only [pc] at h
      split at h
      · next hd => cases h; exact ⟨[], _, rfl, by rw [sep_punct, eq_of_beq hd]; exact hc.ne, rfl⟩
      · cases h

instance good_scan [hg : InsensP g] [hk : GoodP k] [hkc : ClosesP k] : GoodP (seq (scan g) k) where
  fwd u τ r ht h := by
    unfold seq at h ⊢
    cases hu : scan g u with
    | none => rw [hu] at h; cases h
    | some x => rw [hu] at h; rw [scan_fwd ht hu]; exact hk.fwd x τ r ht h
  bwd u τ r ht h := by
    unfold seq at h ⊢
    cases hu : scan g (u ++ τ) with
    | none => rw [hu] at h; cases h
    | some x =>
      rw [hu] at h
      obtain ⟨c, rfl, -⟩ := hk.sfx _ _ h
      rw [← List.append_assoc] at hu h
      rw [scan_bwd ht hu]
      exact hk.bwd _ τ r ht h
  sfx ts r h := by
    unfold seq at h
    cases hu : scan g ts with
    | none => rw [hu] at h; cases h
    | some x =>
      rw [hu] at h
      obtain ⟨-, c, rfl⟩ := scan_shorter hu
      obtain ⟨d, t, rfl, hd⟩ := hkc.closes _ _ h
      exact ⟨c ++ d ++ [t], by simp, hd.endOk _⟩

theorem seq_assoc (p q r : Par) : seq p (seq q r) = seq (seq p q) r := by
  funext ts
  unfold seq
  cases p ts <;> rfl

instance good_seqs_scan [InsensP g] [GoodP k] [ClosesP k] [GoodP (seqs ps)] : GoodP (seqs (scan g :: k :: ps)) := by
  rw [seqs_cons, seqs_cons, seq_assoc]; infer_instance

/-! ## The grammar -/

/-- The parsers one level down are good. -/
class RecGood (rec : Cat → Par) : Prop where
  good : ∀ c, c ≠ .stmt → c ≠ .item → GoodP (rec c)

section
variable {rec : Cat → Par} [hr : RecGood rec]

instance : GoodP (rec .path) := hr.good _ (by simp) (by simp)
instance : GoodP (rec .exprPath) := hr.good _ (by simp) (by simp)
instance : GoodP (rec .typePath) := hr.good _ (by simp) (by simp)
instance : GoodP (rec .generics) := hr.good _ (by simp) (by simp)
instance : GoodP (rec .type) := hr.good _ (by simp) (by simp)
instance : GoodP (rec .typeNoPlus) := hr.good _ (by simp) (by simp)
instance : GoodP (rec .bound) := hr.good _ (by simp) (by simp)
instance : GoodP (rec .expr) := hr.good _ (by simp) (by simp)
instance : GoodP (rec .cond) := hr.good _ (by simp) (by simp)
instance : GoodP (rec (.operand b)) := hr.good _ (by simp) (by simp)
instance {b : Bool} : GoodP (rec (if b then .expr else .cond)) := by cases b <;> simp <;> infer_instance

instance : StrictP colons := by unfold colons; infer_instance
instance : StrictP ltP := by unfold ltP; infer_instance
instance : StrictP segIdent := by unfold segIdent; infer_instance
instance : StrictP label := by unfold label; infer_instance
instance : StrictP startsBlock := by unfold startsBlock; infer_instance
instance : StrictP (blockP rec) := by unfold blockP; infer_instance
instance good_arrowType : GoodP (arrowType rec) := by unfold arrowType; infer_instance
instance good_argTail : GoodP (argTail rec) := by unfold argTail; infer_instance
instance good_genericArg : GoodP (genericArg rec) := by unfold genericArg; infer_instance

instance closes_genericArgs : ClosesP (genericArgs rec n) where
  closes := by
    induction n with
    | zero => intro ts r h; cases h
    | succ n ih =>
      intro ts r h
      rw [genericArgs] at h
      split at h
      · exact (closes_pc (c := '>')).closes _ _ h
      · cases ha : genericArg rec ts with
        | none => rw [ha] at h; cases h
        | some x =>
          rw [ha] at h
          obtain ⟨c, rfl, -⟩ := (good_genericArg (rec := rec)).sfx _ _ ha
          simp only [Option.bind_some] at h
          split at h
          · match x, h with
            | .punct d j :: x, h =>
              simp only [pc] at h
              split at h
              · obtain ⟨c', t, rfl, ht⟩ := ih _ _ h
                exact ⟨c ++ .punct d j :: c', t, by simp, ht⟩
              · cases h
          · obtain ⟨c', t, rfl, ht⟩ := (closes_pc (c := '>')).closes _ _ h
            exact ⟨c ++ c', t, by simp, ht⟩

theorem pc_tail {c : Char} {τ : Toks} [NotSep c] (ht : Tail τ) : pc c τ = none := by
  simpa [pc] using (strict_pc (c := c)).strict [] τ ht

instance good_genericArgs : GoodP (genericArgs rec n) where
  sfx := ClosesP.sfx
  fwd := by
    induction n with
    | zero => intro u τ r ht h; cases h
    | succ n ih =>
      intro u τ r ht h
      rw [genericArgs] at h ⊢
      rw [(insens_has (p := pc '>')).insens u τ ht]
      split at h
      · next hu => rw [if_pos hu]; exact GoodP.fwd u τ r ht h
      · next hu =>
        rw [if_neg hu]
        cases ha : genericArg rec u with
        | none => rw [ha] at h; cases h
        | some x =>
          rw [ha] at h
          rw [GoodP.fwd u τ x ht ha]
          simp only [Option.bind_some] at h ⊢
          match x, h with
          | [], h => simp [has, pc] at h
          | t :: x, h =>
            have hh : has (pc ',') (t :: x ++ τ) = has (pc ',') (t :: x) := by
              cases t <;> simp [has, pc]
              split <;> rfl
            rw [hh]
            split at h
            · next hc =>
              rw [if_pos hc]
              match t, h with
              | .punct d j, h =>
                simp only [List.cons_append, pc] at h ⊢
                split at h
                · next hd => rw [if_pos hd]; exact ih _ _ _ ht h
                · cases h
            · next hc => rw [if_neg hc]; exact GoodP.fwd _ τ r ht h
  bwd := by
    induction n with
    | zero => intro u τ r ht h; cases h
    | succ n ih =>
      intro u τ r ht h
      rw [genericArgs] at h ⊢
      rw [(insens_has (p := pc '>')).insens u τ ht] at h
      split at h
      · next hu => rw [if_pos hu]; exact GoodP.bwd u τ r ht h
      · next hu =>
        rw [if_neg hu]
        cases ha : genericArg rec (u ++ τ) with
        | none => rw [ha] at h; cases h
        | some x =>
          rw [ha] at h
          simp only [Option.bind_some] at h
          have hx : ∃ y, x = y ++ τ ∧ y ≠ [] := by
            split at h
            · match x, h with
              | .punct d j :: x, h =>
                simp only [pc] at h
                split at h
                · obtain ⟨c, t, rfl, -⟩ := (closes_genericArgs (rec := rec) (n := n)).closes _ _ h
                  exact ⟨.punct d j :: c ++ t :: r, by simp, by simp⟩
                · cases h
            · obtain ⟨c, t, rfl, -⟩ := (closes_pc (c := '>')).closes _ _ h
              exact ⟨c ++ t :: r, by simp, by simp⟩
          obtain ⟨y, rfl, hy⟩ := hx
          rw [GoodP.bwd u τ y ht ha]
          simp only [Option.bind_some]
          match y, h, hy with
          | t :: y, h, _ =>
            have hh : has (pc ',') (t :: y ++ τ) = has (pc ',') (t :: y) := by
              cases t <;> simp [has, pc]
              split <;> rfl
            rw [hh] at h
            split at h
            · next hc =>
              rw [if_pos hc]
              match t, h with
              | .punct d j, h =>
                simp only [List.cons_append, pc] at h ⊢
                split at h
                · next hd => rw [if_pos hd]; exact ih _ _ _ ht h
                · cases h
            · next hc => rw [if_neg hc]; exact GoodP.bwd _ τ r ht h

instance good_genericsP : GoodP (genericsP rec) := by unfold genericsP; infer_instance
instance good_segment : GoodP (segment rec a b) := by unfold segment; infer_instance
instance good_pathWith : GoodP (pathWith rec a b) := by unfold pathWith; infer_instance
instance good_qself : GoodP (qself rec a) := by unfold qself; infer_instance
instance good_boundP : GoodP (boundP rec) := by unfold boundP; infer_instance
instance good_typeNoPlusP : GoodP (typeNoPlusP rec) := by unfold typeNoPlusP; infer_instance
instance good_typeP : GoodP (typeP rec) := by unfold typeP; infer_instance

instance good_postOps : GoodP (postOps rec n) := by
  induction n with
  | zero => exact inferInstanceAs (GoodP some)
  | succ n ih => rw [postOps]; infer_instance

instance good_none : StrictP (fun _ => none) where
  strict u τ _ := rfl
  sfx ts r h := by cases h

instance good_ifP : GoodP (ifP rec n) := by
  induction n with
  | zero => rw [ifP]; infer_instance
  | succ n ih => rw [ifP]; infer_instance

instance good_blockLike : GoodP (blockLike rec) := by unfold blockLike; infer_instance
instance good_closureP : GoodP (closureP rec) := by unfold closureP; infer_instance

instance strict_anyIdent : StrictP (fun ts => if has (kwP s) ts then none else match ts with | .ident _ :: r => some r | _ => none) :=
  strict_one (f := fun t => match t with | .ident n => !(n == s) | _ => false) rfl
    (fun t ts => by cases t <;> simp [has, kwP])
    (fun t ht => by cases t <;> first | rfl | cases ht)

instance strict_ifStruct {b : Bool} [StrictP p] : StrictP (fun ts => if b then p ts else none) := by
  cases b
  · exact inferInstanceAs (StrictP fun _ => none)
  · simpa

instance : StrictP (beginsExpr b) := by unfold beginsExpr; infer_instance
instance good_optExpr : GoodP (optExpr rec b) := by unfold optExpr; infer_instance
instance good_atom : GoodP (atom rec b) := by unfold atom; infer_instance
instance good_operandP : GoodP (operandP rec b) := by unfold operandP; infer_instance
instance strict_binop : StrictP binop := by
  unfold binop
  simp only [List.map_cons, List.map_nil, List.cons_append, List.nil_append]
  infer_instance
instance good_rangeEnd : GoodP (rangeEnd rec b) := by unfold rangeEnd; infer_instance
instance good_binaryP : GoodP (binaryP rec b n) := by
  induction n with
  | zero => exact inferInstanceAs (GoodP some)
  | succ n ih => rw [binaryP]; infer_instance
instance good_exprWith : GoodP (exprWith rec b) := by unfold exprWith; infer_instance

end

instance recGood_parse (n : Nat) : RecGood (parse n) where
  good := by
    induction n with
    | zero => intro c _ _; rw [parse]; infer_instance
    | succ n ih =>
      have : RecGood (parse n) := ⟨ih⟩
      intro c h1 h2
      cases c <;> first | contradiction | (simp only [parse]; infer_instance)

/-- Paths, types and expressions. -/
theorem rust_good (c : Cat) (h1 : c ≠ .stmt) (h2 : c ≠ .item) : GoodP (rust c) := (recGood_parse fuel).good c h1 h2

end Verif.Lite
