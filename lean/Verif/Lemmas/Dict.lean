import Verif.Model.Base
/-! Laws of the dictionary model. -/
set_option linter.unusedSectionVars false
namespace Pieshell.Dict
variable {κ α : Type} [DecidableEq κ]

theorem get?_set (d : Dict κ α) (k k' : κ) (v : α) :
    get? (set d k v) k' = if k = k' then some v else get? d k' := by
  induction d with
  | nil => simp [set, get?]
  | cons p d ih =>
    obtain ⟨a, b⟩ := p
    by_cases h : a = k
    · subst h; by_cases h2 : a = k' <;> simp [set, get?, h2]
    · by_cases h2 : a = k'
      · subst h2; simp [set, get?, h, Ne.symm h]
      · simp [set, get?, h, h2, ih]

theorem get?_erase (d : Dict κ α) (hd : Uniq d) (k k' : κ) :
    get? (erase d k) k' = if k = k' then none else get? d k' := by
  induction d with
  | nil => simp [erase, get?]
  | cons p d ih =>
    obtain ⟨a, b⟩ := p
    have hd' : Uniq d := by simp [Uniq, keys] at hd ⊢; exact hd.2
    have hnot : ∀ x, (a, x) ∉ d := by simp [Uniq, keys] at hd; exact hd.1
    have hget : get? d a = none := by
      clear ih hd hd'
      induction d with
      | nil => rfl
      | cons q d ih =>
        obtain ⟨c, e⟩ := q
        have : c ≠ a := by intro h; subst h; exact hnot e (by simp)
        simp [get?, this]; exact ih (fun x hx => hnot x (by simp [hx]))
    by_cases h : a = k
    · subst h
      by_cases h2 : a = k'
      · subst h2; simp [erase, hget]
      · simp [erase, get?, h2]
    · by_cases h2 : a = k'
      · subst h2; simp [erase, get?, h, Ne.symm h]
      · simp [erase, get?, h, h2, ih hd']

theorem mem_keys_iff (d : Dict κ α) (k : κ) : k ∈ keys d ↔ ∃ v, get? d k = some v := by
  induction d with
  | nil => simp [keys, get?]
  | cons p d ih =>
    obtain ⟨a, b⟩ := p
    by_cases h : a = k
    · subst h; simp [keys, get?]
    · have : k ≠ a := fun e => h e.symm
      simp [keys, get?, h, this] at ih ⊢; exact ih

theorem get?_eq_none_iff (d : Dict κ α) (k : κ) : get? d k = none ↔ k ∉ keys d := by
  rw [mem_keys_iff]; cases get? d k <;> simp

theorem keys_set (d : Dict κ α) (k : κ) (v : α) :
    keys (set d k v) = if k ∈ keys d then keys d else keys d ++ [k] := by
  induction d with
  | nil => simp [set, keys]
  | cons p d ih =>
    obtain ⟨a, b⟩ := p
    by_cases h : a = k
    · subst h; simp [set, keys]
    · have h' : k ≠ a := fun e => h e.symm
      simp only [set, h, ↓reduceIte]
      simp only [keys, List.map_cons, List.mem_cons, h', false_or] at ih ⊢
      rw [ih]; by_cases hm : k ∈ List.map Prod.fst d <;> simp [hm]

theorem uniq_set (d : Dict κ α) (hd : Uniq d) (k : κ) (v : α) : Uniq (set d k v) := by
  unfold Uniq; rw [keys_set]; split
  · exact hd
  · rename_i h
    exact List.nodup_append.2 ⟨hd, by simp, by simp; intro a ha e; subst e; exact h ha⟩

theorem keys_erase (d : Dict κ α) (k : κ) : keys (erase d k) = (keys d).erase k := by
  induction d with
  | nil => simp [erase, keys]
  | cons p d ih =>
    obtain ⟨a, b⟩ := p
    by_cases h : a = k
    · subst h; simp [erase, keys]
    · simp [erase, h, keys] at ih ⊢; exact ih

theorem mem_keys_erase (d : Dict κ α) (k k' : κ) (h : k' ∈ keys (erase d k)) : k' ∈ keys d := by
  rw [keys_erase] at h
  exact List.mem_of_mem_erase h

theorem uniq_erase (d : Dict κ α) (hd : Uniq d) (k : κ) : Uniq (erase d k) := by
  unfold Uniq; rw [keys_erase]; exact hd.erase k

theorem uniq_nil : Uniq ([] : Dict κ α) := by simp [Uniq, keys]

theorem get?_of_mem (d : Dict κ α) (hd : Uniq d) {k : κ} {v : α} (h : (k, v) ∈ d) :
    get? d k = some v := by
  induction d with
  | nil => simp at h
  | cons p d ih =>
    obtain ⟨a, b⟩ := p
    simp [Uniq, keys] at hd
    rcases List.mem_cons.1 h with h | h
    · cases h; simp [get?]
    · have : a ≠ k := by intro e; subst e; exact hd.1 v h
      simp [get?, this]; exact ih (by simpa [Uniq, keys] using hd.2) h

theorem mem_of_get? (d : Dict κ α) {k : κ} {v : α} (h : get? d k = some v) : (k, v) ∈ d := by
  induction d with
  | nil => simp [get?] at h
  | cons p d ih =>
    obtain ⟨a, b⟩ := p
    by_cases e : a = k
    · subst e; simp [get?] at h; subst h; simp
    · simp [get?, e] at h; exact List.mem_cons_of_mem _ (ih h)

theorem get?_update (d e : Dict κ α) (he : Uniq e) (k : κ) :
    get? (update d e) k = match get? e k with | some v => some v | none => get? d k := by
  induction e generalizing d with
  | nil => simp [update, get?]
  | cons p e ih =>
    obtain ⟨a, b⟩ := p
    have he' : Uniq e := by simp [Uniq, keys] at he ⊢; exact he.2
    have hnot : a ∉ keys e := by simp [Uniq, keys] at he ⊢; exact he.1
    have := ih (set d a b) he'
    simp only [update, List.foldl_cons] at this ⊢
    rw [this, get?_set]
    by_cases h : a = k
    · subst h; simp [get?, (get?_eq_none_iff e a).2 hnot]
    · simp [get?, h]

end Pieshell.Dict
