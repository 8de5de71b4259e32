import Verif.Model.Codes
/-!
C32: provider status errors survive the textual round trip.
-/
namespace MCM.Codes
open MCM

/-! ### Specification -/

/-- Brackets are balanced: no prefix closes more than it opens, and all are closed at the end. -/
def Balanced (l : List Char) : Prop :=
  (∀ p, p <+: l → p.count ']' ≤ p.count '[') ∧ l.count ']' = l.count '['

/-- one of the codes defined in codes.go -/
def Named : Code → Prop
  | .other _ => False
  | _ => True

/-- no square bracket -/
def Plain (s : String) : Prop := '[' ∉ s.toList ∧ ']' ∉ s.toList

/-! ### Lemmas -/

theorem scan_append (s : Scan) (a b : List Char) : (a ++ b).foldl scanStep s = b.foldl scanStep (a.foldl scanStep s) :=
  List.foldl_append

/-- scanning text that does not close the bracket being read -/
theorem scan_inside : ∀ (l : List Char) (s : Scan), (∀ p, p <+: l → p.count ']' < s.depth + p.count '[') →
    l.foldl scanStep s = { decoded := s.decoded, temp := s.temp ++ l, depth := s.depth + l.count '[' - l.count ']' } := by
  intro l
  induction l with
  | nil => intro s _; simp
  | cons c l ih =>
    intro s h
    have h0 : 0 < s.depth := by have := h [] (List.nil_prefix); simpa using this
    have h1 := h [c] ⟨l, rfl⟩
    rw [List.foldl_cons]
    by_cases hc : c = '['
    · subst hc
      have e : scanStep s '[' = { s with depth := s.depth + 1, temp := s.temp ++ ['['] } := rfl
      rw [e, ih]
      · simp only [List.append_assoc, List.singleton_append, List.count_cons_self, Scan.mk.injEq, true_and]
        have : List.count ']' ('[' :: l) = l.count ']' := List.count_cons_of_ne (by decide)
        rw [this]; omega
      · intro p hp
        have := h ('[' :: p) (by simpa using hp)
        have e2 : List.count ']' ('[' :: p) = p.count ']' := List.count_cons_of_ne (by decide)
        rw [List.count_cons_self, e2] at this
        show _ < s.depth + 1 + _
        omega
    · by_cases hd : c = ']'
      · subst hd
        have h2 : 1 < s.depth := by
          have e1 : List.count ']' [']'] = 1 := by decide
          have e2 : List.count '[' [']'] = 0 := by decide
          rw [e1, e2] at h1; omega
        have e : scanStep s ']' = { s with depth := s.depth - 1, temp := s.temp ++ [']'] } := by
          unfold scanStep
          rw [if_neg (by decide), if_pos rfl, if_pos h0, if_neg (by omega)]
        rw [e, ih]
        · simp only [List.append_assoc, List.singleton_append, List.count_cons_self, Scan.mk.injEq, true_and]
          have : List.count '[' (']' :: l) = l.count '[' := List.count_cons_of_ne (by decide)
          rw [this]; omega
        · intro p hp
          have := h (']' :: p) (by simpa using hp)
          have e2 : List.count '[' (']' :: p) = p.count '[' := List.count_cons_of_ne (by decide)
          rw [List.count_cons_self, e2] at this
          show _ < s.depth - 1 + _
          omega
      · have e : scanStep s c = { s with temp := s.temp ++ [c] } := by
          unfold scanStep
          rw [if_neg hc, if_neg hd, if_pos h0]
        rw [e, ih]
        · simp only [List.append_assoc, List.singleton_append, Scan.mk.injEq, true_and]
          rw [List.count_cons_of_ne hc, List.count_cons_of_ne hd]
        · intro p hp
          have := h (c :: p) (by simpa using hp)
          rw [List.count_cons_of_ne hc, List.count_cons_of_ne hd] at this
          exact this

/-- scanning plain text outside brackets -/
theorem scan_outside : ∀ (l : List Char) (s : Scan), s.depth = 0 → '[' ∉ l → l.foldl scanStep s = s := by
  intro l
  induction l with
  | nil => intro s _ _; rfl
  | cons c l ih =>
    intro s h0 h1
    simp only [List.mem_cons, not_or] at h1
    rw [List.foldl_cons]
    have e : scanStep s c = s := by
      unfold scanStep
      rw [if_neg (fun e => h1.1 e.symm)]
      split
      · rw [if_neg (by omega)]
      · rw [if_neg (by omega)]
    rw [e]; exact ih s h0 h1.2

theorem decoded_grows : ∀ (l : List Char) (s : Scan), ∃ m, (l.foldl scanStep s).decoded = s.decoded ++ m := by
  intro l
  induction l with
  | nil => intro s; exact ⟨[], by simp⟩
  | cons c l ih =>
    intro s
    obtain ⟨m, hm⟩ := ih (scanStep s c)
    have : ∃ k, (scanStep s c).decoded = s.decoded ++ k := by
      unfold scanStep
      repeat' split
      all_goals first | exact ⟨_, rfl⟩ | exact ⟨[], by simp⟩
    obtain ⟨k, hk⟩ := this
    exact ⟨k ++ m, by rw [List.foldl_cons, hm, hk, List.append_assoc]⟩

/-- either the bracket stays open, or there is a first place where it is closed -/
theorem first_close : ∀ (l : List Char) (d : Nat), 0 < d →
    (∀ p, p <+: l → p.count ']' < d + p.count '[') ∨
    ∃ u v, l = u ++ ']' :: v ∧ (∀ p, p <+: u → p.count ']' < d + p.count '[') ∧ u.count ']' + 1 = d + u.count '[' := by
  intro l
  induction l with
  | nil => intro d hd; left; intro p hp; rw [List.prefix_nil.1 hp]; simpa using hd
  | cons c l ih =>
    intro d hd
    have pre : ∀ (e : Nat) (t : List Char), (∀ p, p <+: t → p.count ']' < e + p.count '[') →
        ([c].count ']' + e = d + [c].count '[') → (∀ p, p <+: c :: t → p.count ']' < d + p.count '[') := by
      intro e t h he p hp
      cases p with
      | nil => simpa using hd
      | cons x p =>
        obtain ⟨rfl, hp2⟩ := List.cons_prefix_cons.1 hp
        have := h p hp2
        have a1 : List.count ']' (x :: p) = [x].count ']' + p.count ']' := by
          rw [show x :: p = [x] ++ p from rfl, List.count_append]
        have a2 : List.count '[' (x :: p) = [x].count '[' + p.count '[' := by
          rw [show x :: p = [x] ++ p from rfl, List.count_append]
        rw [a1, a2]; omega
    by_cases hz : [c].count ']' = d + [c].count '['
    · right
      have hc : c = ']' := by
        by_cases h : c = ']'
        · exact h
        · have : [c].count ']' = 0 := by rw [List.count_cons_of_ne h]; rfl
          omega
      subst hc
      refine ⟨[], l, rfl, fun p hp => by rw [List.prefix_nil.1 hp]; simpa using hd, ?_⟩
      have a1 : [']'].count ']' = 1 := by decide
      have a2 : [']'].count '[' = 0 := by decide
      rw [a1, a2] at hz; simp; omega
    · have hle : [c].count ']' ≤ 1 := by
        have := List.count_le_length (a := ']') (l := [c]); simpa using this
      have hpos : 0 < d + [c].count '[' - [c].count ']' := by omega
      rcases ih (d + [c].count '[' - [c].count ']') hpos with h | ⟨u, v, h1, h2, h3⟩
      · left; exact pre _ l h (by omega)
      · right
        refine ⟨c :: u, v, by rw [h1]; rfl, pre _ u h2 (by omega), ?_⟩
        have a1 : List.count ']' (c :: u) = [c].count ']' + u.count ']' := by
          rw [show c :: u = [c] ++ u from rfl, List.count_append]
        have a2 : List.count '[' (c :: u) = [c].count '[' + u.count '[' := by
          rw [show c :: u = [c] ++ u from rfl, List.count_append]
        rw [a1, a2]; omega

/-- closing the outermost bracket -/
theorem scan_close (s : Scan) (u v : List Char) (hs : s.depth = 1) (ht : s.temp = ['['])
    (h : ∀ p, p <+: u → p.count ']' < 1 + p.count '[') (he : u.count ']' + 1 = 1 + u.count '[') :
    (u ++ ']' :: v).foldl scanStep s = v.foldl scanStep { decoded := s.decoded ++ [String.ofList u], temp := [], depth := 0 } := by
  rw [scan_append, scan_inside u s (by rw [hs]; exact h), List.foldl_cons]
  congr 1
  have e : scanStep { decoded := s.decoded, temp := s.temp ++ u, depth := s.depth + u.count '[' - u.count ']' } ']' =
      { decoded := s.decoded ++ [String.ofList (((s.temp ++ u) ++ [']']).drop 1).dropLast], temp := [], depth := 0 } := by
    unfold scanStep
    rw [if_neg (by decide), if_pos rfl]
    dsimp only
    rw [if_pos (by omega), if_pos (by omega)]
  rw [e, ht]
  simp

theorem code_plain (c : Code) : '[' ∉ c.str.toList ∧ ']' ∉ c.str.toList := by
  cases c with
  | other n =>
    have hd : ∀ ch : Char, ch ∈ (toString n).toList → ch.isDigit = true := by
      intro ch hch
      have : toString n = n.repr := rfl
      rw [this, Nat.repr] at hch
      exact Nat.isDigit_of_mem_toDigits (b := 10) (n := n) (by decide) (by decide) (by simpa using hch)
    have key : ∀ ch : Char, ch.isDigit = false → ch ∉ "Code(".toList → ch ∉ ")".toList →
        ch ∉ (Code.other n).str.toList := by
      intro ch h1 h2 h3 hm
      unfold Code.str at hm
      rw [String.toList_append, String.toList_append, List.mem_append, List.mem_append] at hm
      rcases hm with (h | h) | h
      · exact h2 h
      · rw [hd ch h] at h1; cases h1
      · exact h3 h
    exact ⟨key '[' (by decide) (by decide) (by decide), key ']' (by decide) (by decide) (by decide)⟩
  | _ => exact ⟨by decide, by decide⟩

theorem count_zero_of_not_mem {l : List Char} {a : Char} (h : a ∉ l) : l.count a = 0 := List.count_eq_zero.2 h

/-- scanning everything up to the message's opening bracket -/
theorem scan_head (pre : String) (hp : '[' ∉ pre.toList) (c : Code) :
    (pre.toList ++ ("machine codes error: code = [" ++ c.str ++ "] message = [").toList).foldl scanStep {} =
      { decoded := [c.str], temp := ['['], depth := 1 } := by
  rw [scan_append, scan_outside pre.toList {} rfl hp]
  rw [String.toList_append, String.toList_append]
  have h1 : "machine codes error: code = [".toList = "machine codes error: code = ".toList ++ ['['] := by decide
  have h2 : "] message = [".toList = ']' :: (" message = ".toList ++ ['[']) := by decide
  rw [h1, h2, List.append_assoc, List.append_assoc, scan_append, scan_outside _ {} rfl (by decide)]
  rw [List.singleton_append, List.foldl_cons]
  have e : scanStep {} '[' = { decoded := [], temp := ['['], depth := 1 } := rfl
  rw [e]
  have hc := code_plain c
  rw [scan_close _ c.str.toList _ rfl rfl]
  · rw [scan_append, scan_outside " message = ".toList _ rfl (by decide)]
    simp only [List.nil_append, String.ofList_toList, List.foldl_cons, List.foldl_nil]
    rfl
  · intro p hp
    have : ']' ∉ p := fun hm => hc.2 (hp.subset hm)
    rw [count_zero_of_not_mem this]; omega
  · rw [count_zero_of_not_mem hc.1, count_zero_of_not_mem hc.2]

theorem stringToCode_str {c : Code} (h : Named c) : stringToCode c.str = c := by
  cases c with
  | other n => exact h.elim
  | _ => decide +kernel

/-! ### Theorems -/

/-- C32: For every named code and every message with balanced brackets, the code and the message are recovered from the
error text, also when other code has wrapped it in text without brackets. -/
theorem C32_round_trip_partial (c : Code) (hc : Named c) (msg pre post : String) (hm : Balanced msg.toList)
    (hpre : '[' ∉ pre.toList) (hpost : '[' ∉ post.toList) :
    fromError (pre ++ render c msg ++ post) = some (c, msg) := by
  have e : (pre ++ render c msg ++ post).toList =
      (pre.toList ++ ("machine codes error: code = [" ++ c.str ++ "] message = [").toList) ++
        (msg.toList ++ ']' :: post.toList) := by
    unfold render
    simp only [String.toList_append, List.append_assoc]
    rfl
  unfold fromError findCodeAndMessage
  rw [e, scan_append, scan_head pre hpre c]
  rw [scan_close _ msg.toList post.toList rfl rfl]
  · rw [scan_outside _ _ rfl hpost]
    simp only [String.ofList_toList, List.cons_append, List.nil_append, Option.map_some, stringToCode_str hc]
  · intro p hp; have := hm.1 p hp; omega
  · have := hm.2; omega

/-- C32, exactly: without wrapping, the message is recovered if and only if its brackets are balanced.
Missing from C32: all other messages, which are cut short or not decoded at all. -/
theorem C32_round_trip_iff (c : Code) (hc : Named c) (msg : String) :
    fromError (render c msg) = some (c, msg) ↔ Balanced msg.toList := by
  constructor
  · intro h
    have e : (render c msg).toList =
        ("".toList ++ ("machine codes error: code = [" ++ c.str ++ "] message = [").toList) ++ (msg.toList ++ [']']) := by
      unfold render
      simp only [String.toList_append, List.append_assoc]
      rfl
    unfold fromError findCodeAndMessage at h
    rw [e, scan_append, scan_head "" (by decide) c] at h
    rcases first_close (msg.toList ++ [']']) 1 (by omega) with hopen | ⟨u, v, h1, h2, h3⟩
    · rw [scan_inside _ _ hopen] at h
      simp at h
    · rw [h1, scan_close _ u v rfl rfl h2 h3] at h
      obtain ⟨k, hk⟩ := decoded_grows v { decoded := [c.str] ++ [String.ofList u], temp := [], depth := 0 }
      rw [hk] at h
      cases k with
      | cons x k => simp at h
      | nil =>
        simp only [List.cons_append, List.nil_append, Option.map_some, Option.some.injEq, Prod.mk.injEq] at h
        have hu : u = msg.toList := by rw [← h.2]; simp
        rw [hu] at h2 h3
        exact ⟨fun p hp => by have := h2 p hp; omega, by omega⟩
  · intro h
    have := C32_round_trip_partial c hc msg "" "" h (by decide) (by decide)
    have e : "" ++ render c msg ++ "" = render c msg := by
      rw [String.append_empty, String.empty_append]
    rwa [e] at this

/-- C32: whenever such a text is decoded at all, the code is the one encoded, whatever the message. -/
theorem C32_code_never_wrong (c : Code) (hc : Named c) (msg : String) (c' : Code) (m' : String)
    (h : fromError (render c msg) = some (c', m')) : c' = c := by
  have e : (render c msg).toList =
      ("".toList ++ ("machine codes error: code = [" ++ c.str ++ "] message = [").toList) ++ (msg.toList ++ [']']) := by
    unfold render
    simp only [String.toList_append, List.append_assoc]
    rfl
  unfold fromError findCodeAndMessage at h
  rw [e, scan_append, scan_head "" (by decide) c] at h
  obtain ⟨k, hk⟩ := decoded_grows (msg.toList ++ [']']) { decoded := [c.str], temp := ['['], depth := 1 }
  rw [hk] at h
  cases k with
  | nil => simp at h
  | cons x k =>
    cases k with
    | cons y k => simp at h
    | nil =>
      simp only [List.cons_append, List.nil_append, Option.map_some, Option.some.injEq, Prod.mk.injEq] at h
      rw [← h.1, stringToCode_str hc]

/-- a balanced and nested message, wrapped -/
example : fromError ("get VM: " ++ render .notFound "no VM [id=[7]] here" ++ " (retry)") = some (.notFound, "no VM [id=[7]] here") := by
  decide +kernel
example : Balanced "no VM [id=[7]] here".toList := by
  rw [← C32_round_trip_iff .notFound trivial]; decide +kernel

/-- C32 fails: an unclosed bracket in the message makes the code unreadable – "not found" is no longer recognised. -/
theorem C32_unclosed_bracket_false : fromError (render .notFound "VM [i-4711 is gone") = none := by decide +kernel
/-- C32 fails: a stray closing bracket cuts the message short. -/
theorem C32_stray_bracket_false : fromError (render .internal "exit] code 7") = some (.internal, "exit") := by decide +kernel
/-- C32 fails for codes without a name: they come back as `Unknown`. -/
theorem C32_unnamed_code_false : fromError (render (.other 18) "x") = some (.unknown, "x") := by decide +kernel
/-- Text that is not a provider status may be read as one: the first bracketed word decides. -/
theorem C32_foreign_text_false : fromError "proxy [NotFound] while calling [vm api]" = some (.notFound, "vm api") := by
  decide +kernel

end MCM.Codes
