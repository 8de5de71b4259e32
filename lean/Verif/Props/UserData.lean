import Verif.Model.UserData
/-!
C45: each machine has its own bootstrap token, and the placeholders in the user data are replaced.
-/
namespace MCM.UserData

/-! ### placeholders -/

theorem contains_iff (s p : List Char) : contains s p = true ↔ p <:+: s := by
  induction s with
  | nil => rw [contains]; simp [List.infix_nil]
  | cons c s ih => rw [contains, Bool.or_eq_true, ih, List.isPrefixOf_iff_prefix, List.infix_cons_iff]

/-- what is asked of the text inserted: it is not empty, has neither the first nor the last character of the placeholder, and does not occur in
it -/
structure Fits (p t : List Char) : Prop where
  pne : p ≠ []
  tne : t ≠ []
  head : ∀ c, p.head? = some c → c ∉ t
  last : ∀ c, p.getLast? = some c → c ∉ t
  sub : ¬ t <:+: p

theorem replace_skip (p t : List Char) : ∀ (k : Nat) (s : List Char), replaceFrom p t k s = replaceAll p t (s.drop k) := by
  intro k s
  induction s generalizing k with
  | nil => cases k <;> rfl
  | cons c s ih =>
    cases k with
    | zero => rfl
    | succ k => exact ih k

theorem replace_pos (p t s : List Char) (hp : p ≠ []) (h : p <+: s) : replaceAll p t s = t ++ replaceAll p t (s.drop p.length) := by
  cases s with
  | nil => exact absurd (List.prefix_nil.1 h) hp
  | cons c s =>
    rw [replaceAll, replaceFrom, if_pos (by rwa [List.isPrefixOf_iff_prefix]), replace_skip]
    cases p with
    | nil => exact absurd rfl hp
    | cons x p => rfl

theorem replace_neg (p t : List Char) (c : Char) (s : List Char) (h : ¬ p <+: c :: s) : replaceAll p t (c :: s) = c :: replaceAll p t s := by
  rw [replaceAll, replaceFrom, if_neg (by rwa [List.isPrefixOf_iff_prefix])]
  rfl

/-- an end of the placeholder that begins the result begins the original -/
theorem prefix_back {p t : List Char} (h : Fits p t) : ∀ (n : Nat) (s q : List Char), s.length ≤ n → q <:+ p → q <+: replaceAll p t s → q <+: s := by
  intro n
  induction n with
  | zero =>
    intro s q hn _ hpre
    have : s = [] := List.length_eq_zero_iff.1 (by omega)
    subst this
    exact hpre
  | succ n ih =>
    intro s q hn hq hpre
    cases q with
    | nil => exact List.nil_prefix
    | cons x q =>
      cases s with
      | nil => exact hpre
      | cons c s =>
        by_cases hs : p <+: c :: s
        · exfalso
          rw [replace_pos p t _ h.pne hs] at hpre
          rcases List.prefix_or_prefix_of_prefix hpre (List.prefix_append t _) with h1 | h1
          · -- the end of the placeholder lies within the text inserted
            have hne : (x :: q) ≠ [] := List.cons_ne_nil _ _
            have hl : p.getLast? = some ((x :: q).getLast hne) := by
              obtain ⟨r, rfl⟩ := hq
              rw [List.getLast?_append, List.getLast?_eq_some_getLast hne]; rfl
            refine h.last _ hl ?_
            exact h1.subset (List.getLast_mem hne)
          · exact h.sub (h1.isInfix.trans hq.isInfix)
        · rw [replace_neg p t c s hs] at hpre
          obtain ⟨rfl, hpre'⟩ := List.cons_prefix_cons.1 hpre
          refine List.cons_prefix_cons.2 ⟨rfl, ih s q (by simpa using hn) ?_ hpre'⟩
          obtain ⟨r, rfl⟩ := hq
          exact ⟨r ++ [x], by simp⟩

/-- C45: After the replacement the placeholder does not occur any more. -/
theorem C45_placeholder_gone {p t : List Char} (h : Fits p t) (s : List Char) : ¬ p <:+: replaceAll p t s := by
  have : ∀ (n : Nat) (s : List Char), s.length ≤ n → ¬ p <:+: replaceAll p t s := by
    intro n
    induction n with
    | zero =>
      intro s hn hi
      have : s = [] := List.length_eq_zero_iff.1 (by omega)
      subst this
      exact h.pne (List.infix_nil.1 hi)
    | succ n ih =>
      intro s hn hi
      cases s with
      | nil => exact h.pne (List.infix_nil.1 hi)
      | cons c s =>
        by_cases hs : p <+: c :: s
        · rw [replace_pos p t _ h.pne hs] at hi
          have hlen : ((c :: s).drop p.length).length ≤ n := by
            have := List.length_pos_iff.2 h.pne
            rw [List.length_drop]
            omega
          -- within the inserted text, across its end, or behind it
          obtain ⟨a, b, hab⟩ := hi
          rw [List.append_assoc] at hab
          rcases List.append_eq_append_iff.1 hab with ⟨d, h1, h2⟩ | ⟨d, h1, h2⟩
          · -- it begins within the inserted text, or right behind it
            cases d with
            | nil => exact ih _ hlen ⟨[], b, by simpa using h2⟩
            | cons y d =>
              cases p with
              | nil => exact h.pne rfl
              | cons x p =>
                rw [List.cons_append, List.cons_append] at h2
                have := (List.cons.inj h2).1
                subst this
                exact h.head _ rfl (by rw [h1]; exact List.mem_append_right _ List.mem_cons_self)
          · exact ih _ hlen ⟨d, b, by rw [h2, List.append_assoc]⟩
        · rw [replace_neg p t c s hs] at hi
          rcases List.infix_cons_iff.1 hi with h1 | h1
          · refine hs ?_
            cases p with
            | nil => exact List.nil_prefix
            | cons x p =>
              obtain ⟨rfl, h2⟩ := List.cons_prefix_cons.1 h1
              exact List.cons_prefix_cons.2 ⟨rfl, prefix_back h _ s p (Nat.le_refl _) ⟨[x], rfl⟩ h2⟩
          · exact ih s (by simpa using hn) h1
  exact this s.length s (Nat.le_refl _)

/-- C45: The rest of the user data stays: text without the placeholder is unchanged, and text `a` in front of the first occurrence is kept,
then the inserted text follows, then the rest, treated alike. -/
theorem C45_rest_unchanged (p t : List Char) (hp : p ≠ []) :
    (∀ s, ¬ p <:+: s → replaceAll p t s = s) ∧
    (∀ a b, (∀ a1 a2, a = a1 ++ a2 → a2 ≠ [] → ¬ p <+: a2 ++ (p ++ b)) → replaceAll p t (a ++ (p ++ b)) = a ++ (t ++ replaceAll p t b)) := by
  constructor
  · intro s
    induction s with
    | nil => intro _; rfl
    | cons c s ih =>
      intro h
      rw [replace_neg p t c s (fun h' => h h'.isInfix), ih fun h' => h (List.infix_cons_iff.2 (.inr h'))]
  · intro a
    induction a with
    | nil =>
      intro b _
      rw [List.nil_append, replace_pos p t _ hp ⟨b, rfl⟩]
      simp
    | cons c a ih =>
      intro b h
      have hne := h [] (c :: a) rfl (List.cons_ne_nil _ _)
      rw [List.cons_append, replace_neg p t c _ (by simpa using hne), ih b (fun a1 a2 e hn => h (c :: a1) a2 (by rw [e]; rfl) hn)]
      rfl

/-- what tokens and machine names consist of -/
def Plain (c : Char) : Bool := ('a' ≤ c ∧ c ≤ 'z') ∨ ('0' ≤ c ∧ c ≤ '9') ∨ c = '.' ∨ c = '-'

theorem plain_fits (p t : List Char) (hp : p ≠ []) (ht : 2 ≤ t.length) (hplain : ∀ c ∈ t, Plain c = true)
    (hh : ∀ c, p.head? = some c → Plain c = false) (hl : ∀ c, p.getLast? = some c → Plain c = false)
    (hpairs : ∀ a x y b, p = a ++ x :: y :: b → Plain x = false ∨ Plain y = false) : Fits p t := by
  refine ⟨hp, fun h => by rw [h] at ht; simp at ht, fun c hc hin => ?_, fun c hc hin => ?_, ?_⟩
  · exact absurd (hplain c hin) (by rw [hh c hc]; decide)
  · exact absurd (hplain c hin) (by rw [hl c hc]; decide)
  · rintro ⟨a, b, h⟩
    match t, ht with
    | x :: y :: t, _ =>
      rcases hpairs a x y (t ++ b) (by rw [← h]; simp) with h' | h'
      · exact absurd (hplain x (by simp)) (by rw [h']; decide)
      · exact absurd (hplain y (by simp)) (by rw [h']; decide)

/-- no two neighbours are plain -/
def noPair : List Char → Bool
  | x :: y :: l => (!Plain x || !Plain y) && noPair (y :: l)
  | _ => true

theorem noPair_spec : ∀ (a : List Char) (p : List Char) (x y : Char) (b : List Char), noPair p = true → p = a ++ x :: y :: b →
    Plain x = false ∨ Plain y = false := by
  intro a
  induction a with
  | nil =>
    rintro p x y b h rfl
    rw [List.nil_append, noPair, Bool.and_eq_true, Bool.or_eq_true] at h
    simpa using h.1
  | cons c a ih =>
    rintro p x y b h rfl
    refine ih (a ++ x :: y :: b) x y b ?_ rfl
    cases a with
    | nil => rw [List.cons_append, List.nil_append, noPair, Bool.and_eq_true] at h; exact h.2
    | cons d a => rw [List.cons_append, List.cons_append, noPair, Bool.and_eq_true] at h; exact h.2

/-- C45: The four placeholders of the program fit all tokens and machine names of two or more characters. -/
theorem C45_placeholders_fit (p t : List Char) (hp : p ∈ [tokenPlaceholder, tokenPlaceholderEnc, namePlaceholder, namePlaceholderEnc])
    (ht : 2 ≤ t.length) (hplain : ∀ c ∈ t, Plain c = true) : Fits p t := by
  have hall : ([tokenPlaceholder, tokenPlaceholderEnc, namePlaceholder, namePlaceholderEnc].all fun p =>
      !p.isEmpty && p.head?.all (fun c => !Plain c) && p.getLast?.all (fun c => !Plain c) && noPair p) = true := by decide +kernel
  have := List.all_eq_true.1 hall p hp
  rw [Bool.and_eq_true, Bool.and_eq_true, Bool.and_eq_true] at this
  obtain ⟨⟨⟨h1, h2⟩, h3⟩, h4⟩ := this
  refine plain_fits p t (by simpa using h1) ht hplain (fun c hc => ?_) (fun c hc => ?_) (fun a x y b e => noPair_spec a p x y b h4 e)
  · rw [hc] at h2; simpa using h2
  · rw [hc] at h3; simpa using h3

/-- C45: If the user data contain the plain placeholder, no plain placeholder is left; if they contain only the encoded one, no
encoded placeholder is left. -/
theorem C45_filled (p pEnc t : List Char) (s : List Char) (hp : Fits p t) (hpe : Fits pEnc t) :
    (p <:+: s → ¬ p <:+: fill p pEnc t t s) ∧ (¬ p <:+: s → ¬ pEnc <:+: fill p pEnc t t s) := by
  unfold fill
  constructor
  · intro h
    rw [if_pos ((contains_iff s p).2 h)]
    exact C45_placeholder_gone hp s
  · intro h
    rw [if_neg fun h' => h ((contains_iff s p).1 h')]
    by_cases h2 : contains s pEnc = true
    · rw [if_pos h2]; exact C45_placeholder_gone hpe s
    · rw [if_neg h2]; exact fun h' => h2 ((contains_iff s pEnc).2 h')

/-- C45, false part: User data with both forms of the placeholder keep the encoded one. -/
theorem C45_both_forms_false : ¬ ∀ token name s : List Char, (∀ c ∈ token, Plain c = true) → (∀ c ∈ name, Plain c = true) → 2 ≤ token.length → 2 ≤ name.length →
    ¬ tokenPlaceholderEnc <:+: userData token name s := by
  intro h
  have := h "abcdef.0123".toList "m-1".toList "a=<<BOOTSTRAP_TOKEN>> b=%3C%3CBOOTSTRAP_TOKEN%3E%3E".toList (by decide +kernel) (by decide +kernel) (by decide +kernel) (by decide +kernel)
  rw [← contains_iff] at this
  exact this (by decide +kernel)

example : userData "abcdef.0123".toList "m-1".toList "t=<<BOOTSTRAP_TOKEN>>,<<BOOTSTRAP_TOKEN>> n=%3C%3CMACHINE_NAME%3E%3E".toList
    = "t=abcdef.0123,abcdef.0123 n=m-1".toList := by decide +kernel

/-! ### tokens -/

theorem hexDigit_inj : ∀ a b : Fin 16, hexDigit a.1 = hexDigit b.1 → a = b := by decide

theorem byte_inj (a b : UInt8) (h1 : hexDigit (a.toNat / 16) = hexDigit (b.toNat / 16)) (h2 : hexDigit (a.toNat % 16) = hexDigit (b.toNat % 16)) : a = b := by
  have ha := a.toNat_lt
  have hb := b.toNat_lt
  have e1 := hexDigit_inj ⟨a.toNat / 16, by omega⟩ ⟨b.toNat / 16, by omega⟩ h1
  have e2 := hexDigit_inj ⟨a.toNat % 16, by omega⟩ ⟨b.toNat % 16, by omega⟩ h2
  have e1 := congrArg Fin.val e1
  have e2 := congrArg Fin.val e2
  dsimp only at e1 e2
  refine UInt8.toNat_inj.1 ?_
  omega

theorem tokenID_eq (pre : List UInt8) (a b c d e : UInt8) : tokenID (pre ++ [a, b, c, d, e]) = some (hex [a, b, c]) := by
  unfold tokenID
  rw [if_neg (by simp)]
  have : (pre ++ [a, b, c, d, e]).drop ((pre ++ [a, b, c, d, e]).length - 5) = [a, b, c, d, e] := by simp
  rw [this]
  rfl

/-- C45: Two machines use the same token secret exactly if the names agree in the third, fourth and fifth byte from the end. The
full statement, different names use different secrets, is refuted below. -/
theorem C45_same_secret_partial (p p' : List UInt8) (a b c d e a' b' c' d' e' : UInt8) :
    (tokenID (p ++ [a, b, c, d, e])).map secretName = (tokenID (p' ++ [a', b', c', d', e'])).map secretName ↔ a = a' ∧ b = b' ∧ c = c' := by
  rw [tokenID_eq, tokenID_eq]
  constructor
  · intro h
    have h := Option.some.inj h
    have h := List.append_cancel_left h
    simp only [hex, List.cons.injEq] at h
    obtain ⟨h1, h2, h3, h4, h5, h6, _⟩ := h
    exact ⟨byte_inj _ _ h1 h2, byte_inj _ _ h3 h4, byte_inj _ _ h5 h6⟩
  · rintro ⟨rfl, rfl, rfl⟩
    rfl

/-- C45, false part: Two machines of one set, named with different random suffixes, share a token. -/
theorem C45_shared_false : ¬ ∀ n n' : List UInt8, n ≠ n' → (tokenID n).map secretName ≠ (tokenID n').map secretName := by
  intro h
  exact absurd (h [119, 45, 98, 99, 100, 102, 103] [119, 45, 98, 99, 100, 104, 106] (by decide)) (by decide)

/-- C45, false part: So when one of them has joined, the token of the other one, which still needs it, is deleted. -/
theorem C45_token_taken_away_false : ¬ ∀ (n n' : List UInt8) (r : List Char) (s s1 s2 : Secrets) (t : List Char), n ≠ n' →
    getOrCreate n r s = some (s1, t) → deleteToken n' s1 = some s2 → ∃ id x, tokenID n = some id ∧ s2.lookup (secretName id) = some x := by
  intro h
  obtain ⟨id, x, h1, h2⟩ := h [119, 45, 98, 99, 100, 102, 103] [119, 45, 98, 99, 100, 104, 106] ['x'] [] _ _ _ (by decide) rfl rfl
  have : id = (hex [98, 99, 100]) := (Option.some.inj h1).symm
  subst this
  revert h2
  have : ∀ o : Option (List Char), o = none → o = some x → False := fun o h1 h2 => by rw [h1] at h2; cases h2
  exact this _ (by decide +kernel)

/-- C45, false part: Machines with names of fewer than five bytes make the controller panic. -/
theorem C45_short_name_false : ¬ ∀ n : List UInt8, n ≠ [] → (tokenID n).isSome = true := by
  intro h
  exact absurd (h [109, 49] (by decide)) (by decide)

/-- what a machine does with tokens: it asks for one (with the random text used if there is none), or it has joined -/
inductive Use
  | ask (name : List UInt8) (random : List Char)
  | joined (name : List UInt8)

/-- the machine -/
def Use.name : Use → List UInt8
  | .ask n _ => n
  | .joined n => n

/-- the secrets afterwards -/
def Use.apply (s : Secrets) : Use → Secrets
  | .ask n r => match getOrCreate n r s with
    | some (s', _) => s'
    | none => s
  | .joined n => (deleteToken n s).getD s

theorem secretName_inj {a b : List Char} (h : secretName a = secretName b) : a = b := List.append_cancel_left h

theorem lookup_filter_ne {k k' : List Char} (h : k ≠ k') : ∀ s : Secrets, List.lookup k (s.filter fun e => ¬ (e.1 = k')) = List.lookup k s
  | [] => rfl
  | (a, v) :: s => by
    by_cases e : a = k'
    · rw [List.filter_cons_of_neg (by simp [e]), lookup_filter_ne h s, List.lookup_cons]
      have : (k == a) = false := by rw [e]; simpa using h
      rw [this]
    · rw [List.filter_cons_of_pos (by simp [e]), List.lookup_cons, List.lookup_cons, lookup_filter_ne h s]

theorem use_lookup {n : List UInt8} {id : List Char} (hid : tokenID n = some id) (s : Secrets) (u : Use) (hu : tokenID u.name ≠ tokenID n) :
    (u.apply s).lookup (secretName id) = s.lookup (secretName id) := by
  cases u with
  | ask m r =>
    change tokenID m ≠ tokenID n at hu
    show List.lookup _ (match getOrCreate m r s with | some (s', _) => s' | none => s) = _
    unfold getOrCreate
    cases hm : tokenID m with
    | none => rfl
    | some i =>
      rw [hm, hid] at hu
      dsimp only [Option.map_some]
      cases hl : s.lookup (secretName i) with
      | some x => rfl
      | none =>
        dsimp only
        rw [List.lookup_cons]
        have : (secretName id == secretName i) = false := by
          rw [beq_eq_false_iff_ne]
          exact fun h => hu (by rw [secretName_inj h])
        rw [this]
  | joined m =>
    change tokenID m ≠ tokenID n at hu
    show List.lookup _ ((deleteToken m s).getD s) = _
    unfold deleteToken
    cases hm : tokenID m with
    | none => rfl
    | some i =>
      rw [hm, hid] at hu
      exact lookup_filter_ne (fun h => hu (by rw [secretName_inj h])) s

/-- C45: A machine that asks again gets the token it got before and nothing is changed by it, whatever machines with other token ids have done in between. -/
theorem C45_token_stable (n : List UInt8) (r r' : List Char) (s s1 : Secrets) (t : List Char) (h : getOrCreate n r s = some (s1, t)) (us : List Use)
    (hu : ∀ u ∈ us, tokenID u.name ≠ tokenID n) : getOrCreate n r' (us.foldl Use.apply s1) = some (us.foldl Use.apply s1, t) := by
  unfold getOrCreate at h ⊢
  cases hid : tokenID n with
  | none => rw [hid] at h; cases h
  | some id =>
    rw [hid] at h
    rw [Option.map_some] at h ⊢
    have h := Option.some.inj h
    have key : ∃ x, s1.lookup (secretName id) = some x ∧ t = id ++ '.' :: x := by
      cases hl : s.lookup (secretName id) with
      | some x =>
        rw [hl] at h
        dsimp only at h
        cases h
        exact ⟨x, hl, rfl⟩
      | none =>
        rw [hl] at h
        dsimp only at h
        cases h
        exact ⟨r, by rw [List.lookup_cons_self], rfl⟩
    obtain ⟨x, hx, rfl⟩ := key
    have hk : ∀ (us : List Use) (s1 : Secrets), (∀ u ∈ us, tokenID u.name ≠ tokenID n) → s1.lookup (secretName id) = some x →
        (us.foldl Use.apply s1).lookup (secretName id) = some x := by
      intro us
      induction us with
      | nil => exact fun _ _ h => h
      | cons u us ih =>
        intro s1 hu hs
        rw [List.foldl_cons]
        exact ih _ (fun v hv => hu v (List.mem_cons_of_mem _ hv)) (by rw [use_lookup hid s1 u (hu u List.mem_cons_self), hs])
    rw [hk us s1 hu hx]

-- another machine comes and joins in between
example : getOrCreate [1, 2, 3, 4, 5] ['z'] ([Use.ask [9, 9, 9, 9, 9] ['q'], .joined [9, 9, 9, 9, 9]].foldl Use.apply [(secretName ['0', '1', '0', '2', '0', '3'], ['x'])]) =
    some ([(secretName ['0', '1', '0', '2', '0', '3'], ['x'])], ['0', '1', '0', '2', '0', '3', '.', 'x']) := by decide +kernel

/-- a token is accepted by the API server: an id of six letters or digits, a dot and a secret; and the Secret named after the id holds that secret
(https://kubernetes.io/docs/reference/access-authn-authz/bootstrap-tokens) -/
def Accepted (s : Secrets) (token : List Char) : Prop :=
  ∃ id x, token = id ++ '.' :: x ∧ id.length = 6 ∧ (∀ c ∈ id, c ∈ "0123456789abcdefghijklmnopqrstuvwxyz".toList) ∧
    s.lookup ("bootstrap-token-".toList ++ id) = some x

theorem hexDigit_char (n : Nat) (h : n < 16) : hexDigit n ∈ "0123456789abcdefghijklmnopqrstuvwxyz".toList := by
  have : ∀ k : Fin 16, hexDigit k.val ∈ "0123456789abcdefghijklmnopqrstuvwxyz".toList := by decide
  exact this ⟨n, h⟩

theorem hex_char : ∀ (bs : List UInt8), ∀ c ∈ hex bs, c ∈ "0123456789abcdefghijklmnopqrstuvwxyz".toList
  | [], _, h => nomatch h
  | b :: bs, c, h => by
    have hb := b.toNat_lt
    rw [hex] at h
    rcases List.mem_cons.1 h with rfl | h
    · exact hexDigit_char _ (by omega)
    · rcases List.mem_cons.1 h with rfl | h
      · exact hexDigit_char _ (by omega)
      · exact hex_char bs c h

theorem hex_length : ∀ bs : List UInt8, (hex bs).length = 2 * bs.length
  | [] => rfl
  | b :: bs => by rw [hex, List.length_cons, List.length_cons, hex_length bs, List.length_cons]; omega

/-- C45: the token a machine gets is accepted by the API server, whether it was there before or is new. -/
theorem C45_accepted (n : List UInt8) (r : List Char) (s s1 : Secrets) (t : List Char) (h : getOrCreate n r s = some (s1, t)) : Accepted s1 t := by
  unfold getOrCreate at h
  cases hid : tokenID n with
  | none => rw [hid] at h; cases h
  | some id =>
    rw [hid] at h
    rw [Option.map_some] at h
    have h := Option.some.inj h
    have hform : id.length = 6 ∧ ∀ c ∈ id, c ∈ "0123456789abcdefghijklmnopqrstuvwxyz".toList := by
      unfold tokenID at hid
      split at hid
      · cases hid
      · cases hid
        refine ⟨?_, fun c hc => hex_char _ c (List.mem_of_mem_take hc)⟩
        rw [List.length_take, hex_length, List.length_drop]
        omega
    cases hl : s.lookup (secretName id) with
    | some x =>
      rw [hl] at h
      cases h
      exact ⟨id, x, rfl, hform.1, hform.2, hl⟩
    | none =>
      rw [hl] at h
      cases h
      exact ⟨id, r, rfl, hform.1, hform.2, List.lookup_cons_self ..⟩

example : tokenID [119, 45, 98, 99, 100, 102, 103] = some "626364".toList := by decide +kernel

end MCM.UserData
