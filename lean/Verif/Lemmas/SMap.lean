import Verif.Model.Types
/-! Lookup lemmas for string maps. -/
namespace MCM

theorem lookup_filter_ne (m : SMap) (k k' : String) (h : k' ≠ k) : List.lookup k' (m.filter (fun e => e.1 != k)) = List.lookup k' m := by
  induction m with
  | nil => rfl
  | cons e m ih =>
    obtain ⟨a, b⟩ := e
    by_cases hk : a = k
    · subst hk
      have : (k' == a) = false := by simpa using h
      simp [List.lookup, this, ih]
    · have h1 : (a != k) = true := by simpa using hk
      simp only [List.filter_cons, h1, if_true, List.lookup]
      split
      · rfl
      · exact ih

theorem lookup_filter_eq (m : SMap) (k : String) : List.lookup k (m.filter (fun e => e.1 != k)) = none := by
  induction m with
  | nil => rfl
  | cons e m ih =>
    obtain ⟨a, b⟩ := e
    by_cases hk : a = k
    · simp [hk, ih]
    · have h1 : (a != k) = true := by simpa using hk
      have h2 : (k == a) = false := by simpa using Ne.symm hk
      simp only [List.filter_cons, h1, if_true, List.lookup, h2]
      exact ih

@[simp] theorem lookup_set_eq (m : SMap) (k v : String) : List.lookup k (m.set k v) = some v := by
  simp [SMap.set]

theorem lookup_set_ne (m : SMap) (k k' v : String) (h : k' ≠ k) : List.lookup k' (m.set k v) = List.lookup k' m := by
  have h1 : (k' == k) = false := by simpa using h
  simp only [SMap.set, List.lookup, h1]
  exact lookup_filter_ne m k k' h

@[simp] theorem lookup_del_eq (m : SMap) (k : String) : List.lookup k (m.del k) = none := lookup_filter_eq m k

theorem lookup_del_ne (m : SMap) (k k' : String) (h : k' ≠ k) : List.lookup k' (m.del k) = List.lookup k' m := lookup_filter_ne m k k' h

@[simp] theorem get_set_eq (m : SMap) (k v : String) : (m.set k v).get k = v := by simp [SMap.get]

theorem get_set_ne (m : SMap) (k k' v : String) (h : k' ≠ k) : (m.set k v).get k' = m.get k' := by
  simp [SMap.get, lookup_set_ne _ _ _ _ h]

theorem mem_of_lookup (m : SMap) (k v : String) (h : List.lookup k m = some v) : (k, v) ∈ m := by
  induction m with
  | nil => simp [List.lookup] at h
  | cons e m ih =>
    obtain ⟨a, b⟩ := e
    by_cases hk : k = a
    · subst hk; simp [List.lookup] at h; simp [h]
    · have h1 : (k == a) = false := by simpa using hk
      simp only [List.lookup, h1] at h
      exact List.mem_cons_of_mem _ (ih h)

theorem lookup_of_mem (m : SMap) (k v : String) (hn : (m.map Prod.fst).Nodup) (h : (k, v) ∈ m) : List.lookup k m = some v := by
  induction m with
  | nil => simp at h
  | cons e m ih =>
    obtain ⟨a, b⟩ := e
    simp only [List.map_cons, List.nodup_cons] at hn
    rcases List.mem_cons.1 h with h | h'
    · cases h; simp [List.lookup]
    · have hk : k ≠ a := by
        intro he
        exact hn.1 (List.mem_map.2 ⟨(k, v), h', he⟩)
      have h1 : (k == a) = false := by simpa using hk
      simp only [List.lookup, h1]
      exact ih hn.2 h'

theorem get_eq_some_iff (m : SMap) (k v : String) (hv : v ≠ "") : m.get k = v ↔ List.lookup k m = some v := by
  unfold SMap.get
  cases h : List.lookup k m with
  | none => simp; exact fun h => hv h
  | some w => simp

end MCM
