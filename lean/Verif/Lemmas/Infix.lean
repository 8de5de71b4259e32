import Verif.Model.Termination
/-!
Occurrences of one text in another.
-/
namespace MCM.Termination
open MCM

theorem contains_iff (s t : List Char) : contains s t = true ↔ t <:+: s := by
  induction s with
  | nil => rw [contains]; simp [List.infix_nil]
  | cons c s ih => rw [contains, Bool.or_eq_true, ih, List.isPrefixOf_iff_prefix, List.infix_cons_iff]

/-- an occurrence in a concatenation is in one of the parts or crosses the border -/
theorem infix_append_cases {t a b : List Char} (h : t <:+: a ++ b) :
    t <:+: a ∨ t <:+: b ∨ ∃ x y, x ≠ [] ∧ y ≠ [] ∧ t = x ++ y ∧ x <:+ a ∧ y <+: b := by
  obtain ⟨s, u, h⟩ := h
  rcases List.append_eq_append_iff.1 h with ⟨c, h1, h2⟩ | ⟨c, h1, h2⟩
  · left; exact ⟨s, c, h1.symm⟩
  · rcases List.append_eq_append_iff.1 h1 with ⟨d, h3, h4⟩ | ⟨d, h3, h4⟩
    · by_cases hd : d = []
      · subst hd; right; left; exact ⟨[], u, by rw [h4, h2]; simp⟩
      · by_cases hc : c = []
        · subst hc; left; exact ⟨s, [], by rw [h3, h4]; simp⟩
        · right; right
          exact ⟨d, c, hd, hc, h4, ⟨s, h3.symm⟩, ⟨u, h2.symm⟩⟩
    · right; left; exact ⟨d, u, by rw [h2, h4, List.append_assoc]⟩

/-- a character that does not occur in the text separates -/
theorem infix_sep {t a b : List Char} {c : Char} (hc : c ∉ t) (h : t <:+: a ++ c :: b) : t <:+: a ∨ t <:+: b := by
  rcases infix_append_cases h with h | h | ⟨x, y, hx, hy, rfl, h1, h2⟩
  · exact .inl h
  · rcases List.infix_cons_iff.1 h with h | h
    · cases t with
      | nil => exact .inl ⟨[], a, rfl⟩
      | cons d t =>
        obtain ⟨rfl, _⟩ := List.cons_prefix_cons.1 h
        exact absurd (List.mem_cons_self) hc
    · exact .inr h
  · cases y with
    | nil => exact absurd rfl hy
    | cons d y =>
      obtain ⟨rfl, _⟩ := List.cons_prefix_cons.1 h2
      exact absurd (List.mem_append_right x List.mem_cons_self) hc

/-- no proper beginning of `t` ends `a` -/
def noStart (t a : List Char) : Bool :=
  (List.range t.length).all fun k => k == 0 || !((t.take k).isSuffixOf a)

/-- no proper end of `t` starts `b` -/
def noEnd (t b : List Char) : Bool :=
  (List.range t.length).all fun k => k == 0 || !((t.drop k).isPrefixOf b)

theorem infix_left {t a b : List Char} (ha : noStart t a = true) (h : t <:+: a ++ b) : t <:+: a ∨ t <:+: b := by
  rcases infix_append_cases h with h | h | ⟨x, y, hx, hy, rfl, h1, h2⟩
  · exact .inl h
  · exact .inr h
  · exfalso
    unfold noStart at ha
    rw [List.all_eq_true] at ha
    have hl : 0 < x.length := List.length_pos_iff.2 hx
    have hm : 0 < y.length := List.length_pos_iff.2 hy
    have := ha x.length (by simp; omega)
    rw [List.take_left, List.isSuffixOf_iff_suffix.2 h1] at this
    simp at this
    exact hx this

theorem infix_right {t a b : List Char} (hb : noEnd t b = true) (h : t <:+: a ++ b) : t <:+: a ∨ t <:+: b := by
  rcases infix_append_cases h with h | h | ⟨x, y, hx, hy, rfl, h1, h2⟩
  · exact .inl h
  · exact .inr h
  · exfalso
    unfold noEnd at hb
    rw [List.all_eq_true] at hb
    have hl : 0 < x.length := List.length_pos_iff.2 hx
    have hm : 0 < y.length := List.length_pos_iff.2 hy
    have := hb x.length (by simp; omega)
    rw [List.drop_left, List.isPrefixOf_iff_prefix.2 h2] at this
    simp at this
    exact hx this

end MCM.Termination
