import Verif.Proofs.Deprecation
import Verif.Model.Demo
/-! # Property C53: attaching deprecation warnings -/

namespace Verif.Props
open Verif Spec

/-- **C53**: the output is the tokens of the block with attributes inserted: one for each of the first warnings, in
their order, as many as there are nodes (items, fields, variants, trait items, foreign items) that are not deprecated
yet. Nothing else changes. -/
theorem C53_only_inserts {repr : Str → Str} {sites : Sites} (hl : ∀ k ts, cstsPrint (sites k ts) = ts) (s : Service)
    (block : List Stmt) :
    Inserts ((s.warnings.take (freshCount (nodeAttrs (stmtsCst sites block)))).map (warningToks repr s.pre))
      (stmtsToks block) (cstsPrint (s.emit repr (stmtsCst sites block))) := by
  rw [← stmts_cst (sites := sites) hl]
  unfold Service.emit
  cases hw : s.warnings with
  | nil => simpa using Inserts.refl _
  | cons w ws => exact (visits_spec repr s.pre _ (w :: ws)).2.2

/-- **C53**: the warnings go to the nodes not deprecated yet, in the order of the text, one each; the attribute comes
after the node's own attributes; the other nodes keep their attributes. -/
theorem C53_handed_out {repr : Str → Str} (s : Service) (block : List Cst) :
    nodeAttrs (s.emit repr block) = handOut repr s.pre (nodeAttrs block) s.warnings := by
  unfold Service.emit
  cases hw : s.warnings with
  | nil => simp [handOut_nil]
  | cons w ws => exact (visits_spec repr s.pre _ (w :: ws)).2.1

theorem handOut_each (repr : Str → Str) (pre : Str) (ns : List (List Attr)) (ws : List Warning) :
    ∀ (i : Nat) (as : List Attr), (handOut repr pre ns ws)[i]? = some as → ∃ as₀, ns[i]? = some as₀ ∧
      (as = as₀ ∨ Fresh as₀ ∧ freshCount (ns.take i) < ws.length ∧
        ∃ w, ws[freshCount (ns.take i)]? = some w ∧ as = as₀ ++ [warningAttr repr pre w]) ∧
      (Fresh as₀ → freshCount (ns.take i) < ws.length → as ≠ as₀) := by
  induction ns generalizing ws with
  | nil => intro i as h; simp [handOut] at h
  | cons n ns ih =>
    intro i as h
    cases ws with
    | nil =>
      rw [handOut_nil] at h
      exact ⟨as, h, .inl rfl, by simp⟩
    | cons w ws =>
      by_cases hf : Fresh n
      · simp only [handOut, hf, if_true] at h
        cases i with
        | zero =>
          simp at h
          subst h
          exact ⟨n, rfl, .inr ⟨hf, by simp [freshCount], w, by simp [freshCount], rfl⟩, by simp⟩
        | succ i =>
          obtain ⟨as₀, h1, h2, h3⟩ := ih ws i as (by simpa using h)
          refine ⟨as₀, by simpa using h1, ?_, ?_⟩
          · rcases h2 with h2 | ⟨h2, h4, w', h5, h6⟩
            · exact .inl h2
            · exact .inr ⟨h2, by simp [freshCount, hf]; omega, w', by simpa [freshCount, hf, Nat.add_comm 1] using h5, h6⟩
          · intro h4 h5
            exact h3 h4 (by simp [freshCount, hf] at h5; omega)
      · simp only [handOut, hf, if_false] at h
        cases i with
        | zero =>
          simp at h
          subst h
          exact ⟨n, rfl, .inl rfl, fun h => absurd h hf⟩
        | succ i =>
          obtain ⟨as₀, h1, h2, h3⟩ := ih (w :: ws) i as (by simpa using h)
          refine ⟨as₀, by simpa using h1, ?_, ?_⟩
          · rcases h2 with h2 | ⟨h2, h4, w', h5, h6⟩
            · exact .inl h2
            · exact .inr ⟨h2, by simpa [freshCount, hf] using h4, w', by simpa [freshCount, hf] using h5, h6⟩
          · intro h4 h5
            exact h3 h4 (by simpa [freshCount, hf] using h5)

/-- **C53**: a node that is already deprecated keeps its attributes; any other node gets at most one attribute, and it
does get one unless the nodes before it used up all warnings. So no node ends up with two `deprecated` attributes unless
it had them before. -/
theorem C53_no_second_attribute {repr : Str → Str} (s : Service) (block : List Cst) {i : Nat} {as : List Attr}
    (h : (nodeAttrs (s.emit repr block))[i]? = some as) : ∃ as₀, (nodeAttrs block)[i]? = some as₀ ∧
      (¬ Fresh as₀ → as = as₀) ∧
      (Fresh as₀ → as = as₀ ∧ s.warnings.length ≤ freshCount ((nodeAttrs block).take i) ∨
        ∃ w, s.warnings[freshCount ((nodeAttrs block).take i)]? = some w ∧ as = as₀ ++ [warningAttr repr s.pre w]) := by
  rw [C53_handed_out] at h
  obtain ⟨as₀, h1, h2, h3⟩ := handOut_each _ _ _ _ i as h
  refine ⟨as₀, h1, ?_, ?_⟩
  · intro hf
    rcases h2 with h2 | ⟨h2, -⟩
    · exact h2
    · exact absurd h2 hf
  · intro hf
    rcases h2 with h2 | ⟨-, -, w, h4, h5⟩
    · exact .inl ⟨h2, Nat.le_of_not_lt fun hlt => h3 hf hlt h2⟩
    · exact .inr ⟨w, h4, h5⟩

/-- The warnings are in strictly increasing order. -/
def Sorted (ws : List Warning) : Prop := ws.Pairwise fun v w => v.lt w = true

theorem Warning.lt_iff {a b : Warning} : a.lt b = true ↔ a.note < b.note ∨ a.note = b.note ∧ a.since < b.since := by
  simp [Warning.lt]

theorem Warning.lt_trans {a b c : Warning} (h : a.lt b = true) (h' : b.lt c = true) : a.lt c = true := by
  rw [Warning.lt_iff] at *
  rcases h with h | ⟨h, h1⟩
  · rcases h' with h' | ⟨h', -⟩
    · exact .inl (List.lt_trans h h')
    · exact .inl (h' ▸ h)
  · rcases h' with h' | ⟨h', h2⟩
    · exact .inl (h ▸ h')
    · exact .inr ⟨h.trans h', List.lt_trans h1 h2⟩

theorem Warning.lt_irrefl {a : Warning} : a.lt a = false := by
  cases h : a.lt a with
  | false => rfl
  | true =>
    rw [Warning.lt_iff] at h
    rcases h with h | ⟨-, h⟩ <;> exact absurd h (List.lt_irrefl _)

theorem Warning.lt_total {a b : Warning} (h : a.lt b ≠ true) (h' : b.lt a ≠ true) : a = b := by
  rw [ne_eq, Warning.lt_iff, not_or] at h h'
  have h1 : a.note = b.note := List.le_antisymm (List.not_lt.1 h'.1) (List.not_lt.1 h.1)
  have h2 : a.since = b.since := by
    refine List.le_antisymm (List.not_lt.1 fun h2 => h'.2 ⟨h1.symm, h2⟩) (List.not_lt.1 fun h2 => h.2 ⟨h1, h2⟩)
  cases a; cases b; simp_all

/-- **C53**: the warnings are a set: none is collected twice, and adding one that is there already changes nothing. -/
theorem C53_warnings_are_a_set (w : Warning) {ws : List Warning} (h : Sorted ws) :
    Sorted (insertWarning w ws) ∧ (insertWarning w ws).Nodup ∧ (∀ v, v ∈ insertWarning w ws ↔ v = w ∨ v ∈ ws) ∧
      (w ∈ ws → insertWarning w ws = ws) := by
  have hs : Sorted (insertWarning w ws) ∧ ∀ v, v ∈ insertWarning w ws ↔ v = w ∨ v ∈ ws := by
    induction ws with
    | nil => exact ⟨List.pairwise_singleton _ _, by simp [insertWarning]⟩
    | cons v vs ih =>
      rw [Sorted, List.pairwise_cons] at h
      obtain ⟨ih1, ih2⟩ := ih h.2
      simp only [insertWarning]
      split
      · rename_i hl
        refine ⟨?_, by simp⟩
        rw [Sorted, List.pairwise_cons, List.pairwise_cons]
        refine ⟨fun u hu => ?_, h⟩
        rcases List.mem_cons.1 hu with rfl | hu
        · exact hl
        · exact Warning.lt_trans hl (h.1 u hu)
      · rename_i hl
        split
        · rename_i hl'
          refine ⟨?_, fun u => by simp only [List.mem_cons, ih2]; grind⟩
          rw [Sorted, List.pairwise_cons]
          refine ⟨fun u hu => ?_, ih1⟩
          rcases (ih2 u).1 hu with rfl | hu
          · exact hl'
          · exact h.1 u hu
        · rename_i hl'
          obtain rfl := Warning.lt_total hl hl'
          exact ⟨List.pairwise_cons.2 h, by simp⟩
  refine ⟨hs.1, hs.1.imp fun hl he => ?_, hs.2, fun hm => ?_⟩
  · subst he; rw [Warning.lt_irrefl] at hl; cases hl
  · clear hs
    induction ws with
    | nil => cases hm
    | cons v vs ih =>
      rw [Sorted, List.pairwise_cons] at h
      simp only [insertWarning]
      rcases List.mem_cons.1 hm with rfl | hm
      · simp [Warning.lt_irrefl]
      · have h1 := h.1 w hm
        have h2 : w.lt v ≠ true := fun h3 => by
          have := Warning.lt_trans h1 h3
          rw [Warning.lt_irrefl] at this
          cases this
        rw [if_neg h2, if_pos h1, ih h.2 hm]

example : Sorted [⟨S "a", S "0.1"⟩, ⟨S "a", S "0.2"⟩, semicolonWarning] = False ∧
    Sorted [semicolonWarning, ⟨S "a", S "0.1"⟩, ⟨S "a", S "0.2"⟩] ∧
    insertWarning ⟨S "a", S "0.1"⟩ [semicolonWarning, ⟨S "a", S "0.2"⟩] = [semicolonWarning, ⟨S "a", S "0.1"⟩, ⟨S "a", S "0.2"⟩] := by
  refine ⟨by simp [Sorted]; decide, by simp [Sorted]; decide, by decide⟩

/-- Opaque parts without items inside. -/
def noSites : Sites := fun _ ts => [.toks ts]

example : ∀ k ts, cstsPrint (noSites k ts) = ts := by intro k ts; simp [noSites, cstsPrint, Cst.print]

def demoAttr : Attr := ⟨false, [.ident (S "deprecated")]⟩

/-- `#[deprecated] struct a { x: u8 }`: the struct is deprecated already, the field gets the warning. -/
example : cstsPrint ((⟨[semicolonWarning], 1, S "compose!: "⟩ : Service).emit Ext.demo.strRepr (stmtsCst noSites
      [.item (.struct ⟨[demoAttr], [], []⟩ [] [.ident (S "a")] (.named ⟨[⟨[], [], some [.ident (S "x")], [.ident (S "u8")]⟩], false⟩))])) =
    [.punct '#' false, .group .bracket [.ident (S "deprecated")], .ident (S "struct"), .ident (S "a"),
      .group .brace (warningToks Ext.demo.strRepr (S "compose!: ") semicolonWarning ++
        [.ident (S "x"), .punct ':' false, .ident (S "u8")])] := by decide +kernel

/-- A function of an impl is not a node: the warning goes to the impl, and a second one would be lost. -/
example : nodeAttrs (stmtsCst noSites [.item (.impl ⟨[], [], []⟩ false false none [.ident (S "T")]
    [.fn [] [] false [.ident (S "fn"), .ident (S "f")] []])]) = [[]] := by decide +kernel

end Verif.Props
