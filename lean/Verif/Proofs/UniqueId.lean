import Verif.Model.UniqueId
/-! # Ids drawn by concurrent invocations -/

namespace Verif
variable {ι : Type} [DecidableEq ι]

theorem drawsFrom_mem {i : ι} {n : Nat} {sched : List ι} {x : Nat} (h : x ∈ drawsFrom i n sched) :
    ∃ m, x = nthId (n + m) ∧ sched[m]? = some i := by
  induction sched generalizing n with
  | nil => simp [drawsFrom] at h
  | cons j sched ih =>
    have tail : x ∈ drawsFrom i (n + 1) sched → ∃ m, x = nthId (n + m) ∧ (j :: sched)[m]? = some i := by
      intro h
      obtain ⟨m, h1, h2⟩ := ih h
      exact ⟨m + 1, by rw [h1]; congr 1; omega, by simpa using h2⟩
    unfold drawsFrom at h
    split at h
    · rename_i hj
      rcases List.mem_cons.1 h with h | h
      · exact ⟨0, h, by simp [hj]⟩
      · exact tail h
    · exact tail h

theorem lt_of_getElem? {α : Type} {l : List α} {m : Nat} {a : α} (h : l[m]? = some a) : m < l.length := by
  rcases Nat.lt_or_ge m l.length with h' | h'
  · exact h'
  · rw [List.getElem?_eq_none h'] at h; cases h

theorem drawsFrom_nodup {i : ι} {n : Nat} {sched : List ι} (hn : n + sched.length ≤ 2 ^ 64) : (drawsFrom i n sched).Nodup := by
  induction sched generalizing n with
  | nil => simp [drawsFrom]
  | cons j sched ih =>
    simp only [List.length_cons] at hn
    unfold drawsFrom
    split
    · rw [List.nodup_cons]
      refine ⟨fun h => ?_, ih (by omega)⟩
      obtain ⟨m, h1, h2⟩ := drawsFrom_mem h
      have := lt_of_getElem? h2
      simp only [nthId] at h1
      omega
    · exact ih (by omega)

theorem drawsFrom_length {i : ι} {n : Nat} {sched : List ι} : (drawsFrom i n sched).length = sched.count i := by
  induction sched generalizing n with
  | nil => simp [drawsFrom]
  | cons j sched ih =>
    unfold drawsFrom
    split
    · rename_i hj; subst hj; simp [ih]
    · rename_i hj; rw [ih, List.count_cons_of_ne hj]

theorem draws_disjoint {i j : ι} (hij : i ≠ j) {sched : List ι} (hs : sched.length ≤ 2 ^ 64) {x : Nat} (h : x ∈ draws sched i) :
    x ∉ draws sched j := by
  intro h'
  obtain ⟨m, h1, h2⟩ := drawsFrom_mem h
  obtain ⟨m', h3, h4⟩ := drawsFrom_mem h'
  have := lt_of_getElem? h2
  have := lt_of_getElem? h4
  simp only [nthId] at h1 h3
  have : m = m' := by omega
  subst this
  rw [h2] at h4
  cases h4
  exact hij rfl

theorem stream_mem {sched : List ι} {i : ι} {k : Nat} (h : k < sched.count i) : stream sched i k ∈ draws sched i := by
  have : k < (draws sched i).length := by rw [draws, drawsFrom_length]; exact h
  simp [stream, List.getElem?_eq_getElem this]

theorem stream_inj {sched : List ι} (hs : sched.length ≤ 2 ^ 64) {i : ι} {a b : Nat} (ha : a < sched.count i) (hb : b < sched.count i)
    (h : stream sched i a = stream sched i b) : a = b := by
  have hn : (draws sched i).Nodup := drawsFrom_nodup (by omega)
  have ha' : a < (draws sched i).length := by rw [draws, drawsFrom_length]; exact ha
  have hb' : b < (draws sched i).length := by rw [draws, drawsFrom_length]; exact hb
  simp only [stream, List.getElem?_eq_getElem ha', List.getElem?_eq_getElem hb', Option.getD_some] at h
  exact (List.getElem_inj hn).1 h

end Verif
