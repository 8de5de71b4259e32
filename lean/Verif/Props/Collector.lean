import Verif.Model.Collector
import Verif.Props.Creation
/-!
C107: the collection of orphan VMs spares the VMs of machines, and collects all others, in every interleaving with the creation of machines.
-/
namespace MCM.Collector
open MCM MCM.Creation MCM.Codes MCM.Similar

/-! ## Specification -/

/-- the start of the process: the cache shows what is stored, and VMs of this name exist only if the object does -/
structure Begun (s : S) : Prop where
  one : s.hist.length = 1
  seen : s.seen = 0
  busy : s.busy = none
  pass : s.pass = []
  doomed : s.doomed = none
  vms : s.hist = [none] → s.vms = []

/-- the creation was given up without a provider id having been recorded -/
def GivenUp (o : Obj) : Prop := ¬ Making o ∧ o.pid = ""

/-- the object has a provider id and is past its creation, or it is gone -/
def Settled (s : S) : Prop := (0 < s.seen ∧ s.seen < s.hist.length ∧ s.cache = none) ∨ ∃ o, s.cache = some o ∧ ¬ Making o ∧ o.pid ≠ ""

/-! ## Histories -/

/-- a machine past its creation keeps its provider id -/
def Keep (a b : Obj) : Prop := ¬ Making a → a.pid ≠ "" → ¬ Making b ∧ b.pid = a.pid

theorem keep_trans {a b c : Obj} (h1 : Keep a b) (h2 : Keep b c) : Keep a c := by
  intro ha hp
  obtain ⟨hb, he⟩ := h1 ha hp
  obtain ⟨hc, he'⟩ := h2 hb (by rw [he]; exact hp)
  exact ⟨hc, he'.trans he⟩

theorem keep_next {v o : Obj} (h : Next v o) : Keep v o := by
  intro hv hp
  rcases h with ⟨e, h⟩ | ⟨node, pid, hc, _⟩
  · unfold reconcile at h
    split at h
    · cases h
    · split at h
      · cases h
      · split at h
        · cases h
        · split at h
          · dsimp only at h
            split at h
            · cases h; exact ⟨hv, rfl⟩
            · cases h
          · split at h
            · cases h
            · split at h
              · rename_i hc
                exact absurd hc (by rintro (hc | hc | hc); exact hp hc; exact hv (.inl hc); exact hv (.inr hc))
              · cases h
  · exact absurd hc (by rintro (hc | hc); exact hp hc; exact hv hc)

theorem keep_foreign {v o : Obj} (h : Foreign v o) : Keep v o := fun hv _ => ⟨fun hm => hv (h.2 hm), h.1⟩

/-- only machines that are being made or lack an id get a VM -/
theorem creates_making {e : Env} {v : Obj} (h : creates e v = true) : Making v ∨ v.pid = "" := by
  obtain ⟨req, h⟩ := (requests_iff e v).1 h
  have none' : ∀ out : Out, out.events = [] → ¬ Requested out req := by
    rintro out ho ⟨ans, hm⟩; rw [ho] at hm; cases hm
  unfold reconcile at h
  iterate 5
    split at h
    · exact absurd h (none' _ rfl)
  split at h
  · rename_i hc
    rcases hc with hc | hc | hc
    · exact .inr hc
    · exact .inl (.inl hc)
    · exact .inl (.inr hc)
  · exact absurd h (none' _ rfl)

structure Hist (l : List (Option Obj)) : Prop where
  ne : l ≠ []
  /-- provider ids stay -/
  keep : ∀ (i j : Nat) (a b : Obj), i ≤ j → l[i]? = some (some a) → l[j]? = some (some b) → Keep a b
  /-- nothing comes after the end of the object -/
  last : ∀ i : Nat, 0 < i → l[i]? = some none → i + 1 = l.length

theorem keep_refl (a : Obj) : Keep a a := fun h _ => ⟨h, rfl⟩

theorem getLast?_eq (l : List (Option Obj)) : l.getLast? = l[l.length - 1]? := by
  rw [List.getLast?_eq_getElem?]

theorem store_some {s : S} {v : Obj} (h : s.store = some v) : s.hist[s.hist.length - 1]? = some (some v) := by
  unfold S.store at h
  rw [getLast?_eq] at h
  cases hx : s.hist[s.hist.length - 1]? with
  | none => rw [hx] at h; cases h
  | some x => rw [hx] at h; simp at h; rw [h]

theorem hist_push {l : List (Option Obj)} {v o : Obj} (h : Hist l) (hl : l[l.length - 1]? = some (some v)) (hk : Keep v o) : Hist (l ++ [some o]) := by
  have hlen : 0 < l.length := List.length_pos_iff.2 h.ne
  refine ⟨by simp, ?_, ?_⟩
  · intro i j a b hij hi hj
    rcases Nat.lt_or_ge j l.length with hj' | hj'
    · rw [List.getElem?_append_left hj'] at hj
      rw [List.getElem?_append_left (by omega)] at hi
      exact h.keep i j a b hij hi hj
    · have hje : j = l.length := by
        have := (List.getElem?_eq_some_iff.1 hj).1
        rw [List.length_append, List.length_singleton] at this; omega
      subst hje
      have hb : b = o := by simpa [eq_comm] using hj
      subst hb
      rcases Nat.lt_or_ge i l.length with hi' | hi'
      · rw [List.getElem?_append_left hi'] at hi
        exact keep_trans (h.keep i (l.length - 1) a v (by omega) hi hl) hk
      · have : i = l.length := by omega
        subst this
        have ha : a = b := by simpa [eq_comm] using hi
        rw [ha]; exact keep_refl b
  · intro i hi hn
    rcases Nat.lt_or_ge i l.length with hi' | hi'
    · rw [List.getElem?_append_left hi'] at hn
      have := h.last i hi hn
      have : l.length - 1 = i := by omega
      rw [this, hn] at hl
      cases hl
    · have hje : i = l.length := by
        have := (List.getElem?_eq_some_iff.1 hn).1
        rw [List.length_append, List.length_singleton] at this; omega
      subst hje
      simp at hn

theorem hist_end {l : List (Option Obj)} {v : Obj} (h : Hist l) (hl : l[l.length - 1]? = some (some v)) : Hist (l ++ [none]) := by
  have hlen : 0 < l.length := List.length_pos_iff.2 h.ne
  refine ⟨by simp, ?_, ?_⟩
  · intro i j a b hij hi hj
    rcases Nat.lt_or_ge j l.length with hj' | hj'
    · rw [List.getElem?_append_left hj'] at hj
      rw [List.getElem?_append_left (by omega)] at hi
      exact h.keep i j a b hij hi hj
    · have hje : j = l.length := by
        have := (List.getElem?_eq_some_iff.1 hj).1
        rw [List.length_append, List.length_singleton] at this; omega
      subst hje
      simp at hj
  · intro i hi hn
    rcases Nat.lt_or_ge i l.length with hi' | hi'
    · rw [List.getElem?_append_left hi'] at hn
      have := h.last i hi hn
      have : l.length - 1 = i := by omega
      rw [this, hn] at hl
      cases hl
    · have := (List.getElem?_eq_some_iff.1 hn).1
      rw [List.length_append, List.length_singleton] at this ⊢
      omega

/-! ## Safety -/

/-- why a VM was chosen: some version that the cache showed says so -/
def Reason (l : List (Option Obj)) (vm : VM) : Prop :=
  ∃ i : Nat, (0 < i ∧ l[i]? = some none) ∨ ∃ a, l[i]? = some (some a) ∧ ¬ Making a ∧ a.pid ≠ vm.pid

theorem reason_append {l : List (Option Obj)} {vm : VM} (h : Reason l vm) (x : Option Obj) : Reason (l ++ [x]) vm := by
  obtain ⟨i, h | ⟨a, h, h2⟩⟩ := h
  · have := (List.getElem?_eq_some_iff.1 h.2).1
    exact ⟨i, .inl ⟨h.1, by rw [List.getElem?_append_left this]; exact h.2⟩⟩
  · have := (List.getElem?_eq_some_iff.1 h).1
    exact ⟨i, .inr ⟨a, by rw [List.getElem?_append_left this]; exact h, h2⟩⟩

structure Inv (s : S) : Prop where
  hist : Hist s.hist
  seen : s.seen < s.hist.length
  /-- as long as the cache has never shown the object there is no VM -/
  early : s.seen = 0 → s.hist[0]? = some none → s.vms = [] ∧ s.pass = [] ∧ s.busy = none
  why : ∀ vm, s.doomed = some vm → Reason s.hist vm

theorem inv_begun {s : S} (h : Begun s) : Inv s := by
  have h1 := h.one
  refine ⟨⟨(fun e => by rw [e] at h1; cases h1), ?_, ?_⟩, by rw [h.seen, h1]; exact Nat.zero_lt_one, ?_, fun vm hd => by rw [h.doomed] at hd; cases hd⟩
  · intro i j a b hij hi hj
    have h2 := (List.getElem?_eq_some_iff.1 hj).1
    have : i = 0 := by omega
    have : j = 0 := by omega
    subst i j
    rw [hi] at hj
    cases hj
    exact keep_refl a
  · intro i hi hn
    have h2 := (List.getElem?_eq_some_iff.1 hn).1
    omega
  · intro _ hz
    refine ⟨h.vms ?_, h.pass, h.busy⟩
    obtain ⟨x, hx⟩ := List.length_eq_one_iff.1 h1
    rw [hx] at hz ⊢
    simp at hz
    rw [hz]

theorem get_push_lt {l : List (Option Obj)} {i : Nat} (x : Option Obj) (h : i < l.length) : (l ++ [x])[i]? = l[i]? := List.getElem?_append_left h

theorem cache_of_some {s : S} {o : Obj} (h : s.cache = some o) : s.hist[s.seen]? = some (some o) := by
  unfold S.cache at h
  cases hx : s.hist[s.seen]? with
  | none => rw [hx] at h; cases h
  | some x => rw [hx] at h; simp at h; rw [h]

theorem cache_of_none {s : S} (hs : s.seen < s.hist.length) (h : s.cache = none) : s.hist[s.seen]? = some none := by
  unfold S.cache at h
  cases hx : s.hist[s.seen]? with
  | none => have := List.getElem?_eq_none_iff.1 hx; omega
  | some x => rw [hx] at h; simp at h; rw [h]

theorem inv_step {r u : Bool} {s t : S} (hi : Inv s) (h : Step r u s t) : Inv t := by
  have hlen : 0 < s.hist.length := List.length_pos_iff.2 hi.hist.ne
  have early_push : ∀ x : Option Obj, s.seen = 0 → (s.hist ++ [x])[0]? = some none → s.vms = [] ∧ s.pass = [] ∧ s.busy = none := by
    intro x h0 hz
    rw [get_push_lt x hlen] at hz
    exact hi.early h0 hz
  cases h with
  | make o hh =>
    refine ⟨?_, by simp; have := hi.seen; omega, early_push _, fun vm hd => reason_append (hi.why vm hd) _⟩
    rw [hh]
    refine ⟨by simp, ?_, ?_⟩
    · intro i j a b hij hi hj
      match i, j with
      | 0, _ => simp at hi
      | i + 1, 0 => omega
      | i + 1, j + 1 =>
        have h1 := (List.getElem?_eq_some_iff.1 hj).1
        have h2 := (List.getElem?_eq_some_iff.1 hi).1
        simp at h1 h2
        have : i = 0 := by omega
        have : j = 0 := by omega
        subst i j
        rw [hi] at hj
        cases hj
        exact keep_refl a
    · intro i hi hn
      match i with
      | 0 => omega
      | 1 => simp at hn
      | i + 2 => simp at hn
  | write v o hs hk =>
    exact ⟨hist_push hi.hist (store_some hs) (keep_next hk), by simp; have := hi.seen; omega, early_push _, fun vm hd => reason_append (hi.why vm hd) _⟩
  | other v o hs hk =>
    exact ⟨hist_push hi.hist (store_some hs) (keep_foreign hk), by simp; have := hi.seen; omega, early_push _, fun vm hd => reason_append (hi.why vm hd) _⟩
  | remove v hs =>
    exact ⟨hist_end hi.hist (store_some hs), by simp; have := hi.seen; omega, early_push _, fun vm hd => reason_append (hi.why vm hd) _⟩
  | deliver hd => exact ⟨hi.hist, hd, fun h0 => by simp at h0, hi.why⟩
  | missing e v hb hc hcr =>
    refine ⟨hi.hist, hi.seen, ?_, hi.why⟩
    intro h0 hz
    have := cache_of_some hc
    rw [show s.seen = 0 from h0] at this
    rw [hz] at this
    cases this
  | created b vm hb =>
    refine ⟨hi.hist, hi.seen, ?_, hi.why⟩
    intro h0 hz
    have := (hi.early h0 hz).2.2
    rw [hb] at this
    cases this
  | vanish vms hv =>
    refine ⟨hi.hist, hi.seen, ?_, hi.why⟩
    intro h0 hz
    obtain ⟨h1, h2⟩ := hi.early h0 hz
    rw [h1] at hv
    exact ⟨List.sublist_nil.1 hv, h2⟩
  | list hp hd =>
    refine ⟨hi.hist, hi.seen, ?_, hi.why⟩
    intro h0 hz
    obtain ⟨h1, _, h3⟩ := hi.early h0 hz
    exact ⟨h1, h1, h3⟩
  | check vm rest hd hp =>
    refine ⟨hi.hist, hi.seen, ?_, ?_⟩
    · intro h0 hz
      have := (hi.early h0 hz).2.1
      rw [hp] at this
      cases this
    · intro x hx
      dsimp only at hx
      split at hx
      · rename_i hsd
        cases hx
        cases hc : s.cache with
        | none =>
          refine ⟨s.seen, .inl ⟨?_, cache_of_none hi.seen hc⟩⟩
          rcases Nat.eq_zero_or_pos s.seen with h0 | h0
          · have := (hi.early h0 (by have := cache_of_none hi.seen hc; rw [h0] at this; exact this)).2.1
            rw [hp] at this
            cases this
          · exact h0
        | some o =>
          refine ⟨s.seen, .inr ⟨o, cache_of_some hc, ?_⟩⟩
          rw [hc] at hsd
          unfold lookup Orphan.shouldDelete at hsd
          dsimp only at hsd
          split at hsd
          · cases hsd
          · rename_i hne
            split at hsd
            · cases hsd
            · rename_i hnm
              exact ⟨hnm, hne⟩
      · cases hx
  | strike vm hd =>
    refine ⟨hi.hist, hi.seen, ?_, fun x hx => by cases hx⟩
    intro h0 hz
    obtain ⟨h1, h2⟩ := hi.early h0 hz
    exact ⟨by show s.vms.filter _ = []; rw [h1]; rfl, h2⟩
  | spare vm hu hd =>
    exact ⟨hi.hist, hi.seen, hi.early, fun x hx => by cases hx⟩
  | restart vm hr hb =>
    refine ⟨hi.hist, by dsimp only; omega, ?_, fun x hx => by cases hx⟩
    intro h0 hz
    dsimp only at h0 hz ⊢
    have h1 : s.hist.length = 1 := by omega
    have hseen := hi.seen
    obtain ⟨e1, e2, e3⟩ := hi.early (by omega) hz
    refine ⟨?_, rfl, rfl⟩
    cases vm with
    | none => exact e1
    | some x => exact absurd e3 (hb (by simp))

theorem inv_steps {r u : Bool} {s t : S} (hi : Inv s) (h : Steps r u s t) : Inv t := by
  induction h with
  | refl => exact hi
  | tail _ hs ih => exact inv_step ih hs

/-- **C107**: over any interleaving of passes with creations, writes by anyone, deliveries of the watch and restarts: when the collection deletes a VM and the object still exists, the machine
is past its creation and another VM is its own – unless the creation of that machine had been given up before (`GivenUp`). -/
theorem C107_spares_machines_partial (r u : Bool) (s t : S) (vm : VM) (o : Obj) (hb : Begun s) (h : Steps r u s t) (hd : t.doomed = some vm) (ho : t.store = some o) :
    (¬ Making o ∧ o.pid ≠ vm.pid) ∨ ∃ a, some a ∈ t.hist ∧ GivenUp a := by
  have hi := inv_steps (inv_begun hb) h
  have hl := store_some ho
  obtain ⟨i, ⟨h0, hn⟩ | ⟨a, ha, hma, hp⟩⟩ := hi.why vm hd
  · exfalso
    have := hi.hist.last i h0 hn
    have : t.hist.length - 1 = i := by omega
    rw [this, hn] at hl
    cases hl
  · by_cases he : a.pid = ""
    · exact .inr ⟨a, List.mem_of_getElem? ha, hma, he⟩
    · left
      have hlt := (List.getElem?_eq_some_iff.1 ha).1
      obtain ⟨h1, h2⟩ := hi.hist.keep i (t.hist.length - 1) a o (by omega) ha hl hma he
      exact ⟨h1, by rw [h2]; exact hp⟩

/-- **C107**, what the request does: the VM that the machine names is still there afterwards. -/
theorem C107_recorded_stays_partial (r u : Bool) (s t : S) (vm : VM) (o : Obj) (hb : Begun s) (h : Steps r u s t) (hd : t.doomed = some vm) (ho : t.store = some o)
    (hg : ∀ a, some a ∈ t.hist → ¬ GivenUp a) : ∀ x ∈ t.vms, x.pid = o.pid → x ∈ (t.strike vm).vms := by
  intro x hx hp
  rcases C107_spares_machines_partial r u s t vm o hb h hd ho with ⟨_, h⟩ | ⟨a, ha, h⟩
  · refine List.mem_filter.2 ⟨hx, ?_⟩
    rw [bne_iff_ne, hp]
    exact h
  · exact absurd h (hg a ha)

/-! ## Liveness -/

/-- what is known from a settled moment on: the version `i` of the object, and the VMs that are not its own are chosen or still to be looked up -/
structure Due (i : Nat) (x : Option Obj) (s : S) : Prop where
  inv : Inv s
  ver : s.hist[i]? = some x
  pos : x = none → 0 < i
  set : ∀ o, x = some o → ¬ Making o ∧ o.pid ≠ ""
  seen : i ≤ s.seen
  busy : s.busy = none
  due : ∀ vm ∈ s.vms, (∃ o, x = some o ∧ vm.pid = o.pid) ∨ vm ∈ s.pass ∨ s.doomed = some vm

theorem due_cache {i : Nat} {x : Option Obj} {s : S} (h : Due i x s) : s.cache = none ∨ ∃ o v, x = some o ∧ s.cache = some v ∧ ¬ Making v ∧ v.pid = o.pid ∧ v.pid ≠ "" := by
  cases hc : s.cache with
  | none => exact .inl rfl
  | some v =>
    right
    have hv := cache_of_some hc
    cases hx : x with
    | none =>
      have hver := h.ver
      rw [hx] at hver
      have h1 := h.inv.hist.last i (h.pos hx) hver
      have h2 := h.inv.seen
      have h3 := h.seen
      have : s.seen = i := by omega
      rw [this, hver] at hv
      cases hv
    | some o =>
      have hver := h.ver
      rw [hx] at hver
      obtain ⟨h1, h2⟩ := h.set o hx
      obtain ⟨h3, h4⟩ := h.inv.hist.keep i s.seen o v h.seen hver hv h1 h2
      exact ⟨o, v, rfl, rfl, h3, h4, by rw [h4]; exact h2⟩

theorem due_step {i : Nat} {x : Option Obj} {s t : S} (h : Due i x s) (hs : Step false false s t) : Due i x t := by
  have hi := inv_step h.inv hs
  have hlt := (List.getElem?_eq_some_iff.1 h.ver).1
  have push : ∀ y : Option Obj, (s.hist ++ [y])[i]? = some x := fun y => by rw [get_push_lt y hlt]; exact h.ver
  cases hs with
  | make o hh => exact ⟨hi, push _, h.pos, h.set, h.seen, h.busy, h.due⟩
  | write v o hst hk => exact ⟨hi, push _, h.pos, h.set, h.seen, h.busy, h.due⟩
  | other v o hst hk => exact ⟨hi, push _, h.pos, h.set, h.seen, h.busy, h.due⟩
  | remove v hst => exact ⟨hi, push _, h.pos, h.set, h.seen, h.busy, h.due⟩
  | deliver hd => exact ⟨hi, h.ver, h.pos, h.set, Nat.le_succ_of_le h.seen, h.busy, h.due⟩
  | missing e v hb hc hcr =>
    exfalso
    rcases due_cache h with hn | ⟨o, v', _, hv, hm, _, hp⟩
    · rw [hc] at hn; cases hn
    · rw [hc] at hv
      cases hv
      rcases creates_making hcr with h1 | h1
      · exact hm h1
      · exact hp h1
  | created b vm hb => rw [h.busy] at hb; cases hb
  | vanish vms hv => exact ⟨hi, h.ver, h.pos, h.set, h.seen, h.busy, fun vm hvm => h.due vm (hv.subset hvm)⟩
  | list hp hd =>
    exact ⟨hi, h.ver, h.pos, h.set, h.seen, h.busy, fun vm hvm => .inr (.inl hvm)⟩
  | check vm rest hd hp =>
    refine ⟨hi, h.ver, h.pos, h.set, h.seen, h.busy, ?_⟩
    intro y hy
    rcases h.due y hy with hy | hy | hy
    · exact .inl hy
    · rw [hp] at hy
      rcases List.mem_cons.1 hy with rfl | hy
      · dsimp only
        rcases due_cache h with hn | ⟨o, v, hx, hv, hm, hpid, _⟩
        · right; right
          rw [hn]
          rfl
        · by_cases he : v.pid = y.pid
          · exact .inl ⟨o, hx, by rw [← he, hpid]⟩
          · right; right
            have hsd : Orphan.shouldDelete y.pid (lookup s.cache) = true := by
              rw [hv]
              unfold lookup Orphan.shouldDelete
              dsimp only
              rw [if_neg he]
              exact if_neg hm
            rw [hsd, if_pos rfl]
      · exact .inr (.inl hy)
    · rw [hd] at hy; cases hy
  | strike vm hd =>
    refine ⟨hi, h.ver, h.pos, h.set, h.seen, h.busy, ?_⟩
    intro y hy
    obtain ⟨hy, hne⟩ := List.mem_filter.1 hy
    rcases h.due y hy with hy | hy | hy
    · exact .inl hy
    · exact .inr (.inl hy)
    · rw [hd] at hy
      cases hy
      simp at hne
  | spare vm hu hd => cases hu
  | restart vm hr hb => cases hr

/-- **C107**: once the object is past its creation with its VM recorded, or gone, and no `CreateMachine` for it is under way, a pass without failures that begins then deletes all
other VMs of its name, and there are no others from then on: whatever happens in between, when the pass has ended the only VM left is the recorded one. -/
theorem C107_collects (r u : Bool) (s0 s t : S) (h0 : Begun s0) (hr : Steps r u s0 s) (hst : Settled s) (hb : s.busy = none) (hp : s.pass = s.vms) (h : Steps false false s t) (he : t.pass = [])
    (hd : t.doomed = none) : ∀ vm ∈ t.vms, ∃ o, s.cache = some o ∧ vm.pid = o.pid := by
  have hi := inv_steps (inv_begun h0) hr
  have h0 : Due s.seen s.cache s := by
    refine ⟨hi, ?_, ?_, ?_, Nat.le_refl _, hb, fun vm hvm => .inr (.inl (by rw [hp]; exact hvm))⟩
    · cases hc : s.cache with
      | none => exact cache_of_none hi.seen hc
      | some o => exact cache_of_some hc
    · intro hn
      rcases hst with ⟨h1, _⟩ | ⟨o, ho, _⟩
      · exact h1
      · rw [hn] at ho; cases ho
    · intro o ho
      rcases hst with ⟨_, _, h1⟩ | ⟨o', ho', h1⟩
      · rw [ho] at h1; cases h1
      · rw [ho] at ho'; cases ho'; exact h1
  have hdue : Due s.seen s.cache t := by
    clear he hd
    induction h with
    | refl => exact h0
    | tail _ hs ih => exact due_step ih hs
  intro vm hvm
  rcases hdue.due vm hvm with h | h | h
  · exact h
  · rw [he] at h; cases h
  · rw [hd] at h; cases h

/-- in particular nothing is left of a machine that is gone, although a VM may have been created when it had already gone (`C61_vm_left_behind_false`) -/
theorem C107_nothing_left (r u : Bool) (s0 s t : S) (h0 : Begun s0) (hr : Steps r u s0 s) (hg : 0 < s.seen ∧ s.cache = none) (hb : s.busy = none) (hp : s.pass = s.vms) (h : Steps false false s t)
    (he : t.pass = []) (hd : t.doomed = none) : t.vms = [] := by
  cases hv : t.vms with
  | nil => rfl
  | cons vm l =>
    obtain ⟨o, ho, _⟩ := C107_collects r u s0 s t h0 hr (.inl ⟨hg.1, (inv_steps (inv_begun h0) hr).seen, hg.2⟩) hb hp h he hd vm (by rw [hv]; exact List.mem_cons_self)
    rw [hg.2] at ho
    cases ho

/-! ## Cases -/

/-- the ordinary course: the machine is made, its VM created, recorded, and a pass in between leaves it alone -/
def m0 : Obj := { finalizer := true }
def vm1 : VM := ⟨"node-1", "prov:///vm-1"⟩
def found : Env := { status := .ok "node-1" "prov:///vm-1" }
def m1 : Obj := labelled m0 "node-1" "prov:///vm-1"
def m2 : Obj := { m1 with st := pendingStatus found m1 }

theorem m0_begun : Begun { hist := [some m0] } := ⟨rfl, rfl, rfl, rfl, rfl, nofun⟩

def vm2 : VM := ⟨"node-2", "prov:///vm-2"⟩
/-- the machine is settled, there is a second VM, and a pass has just listed both -/
def twoVMs : S := { hist := [some m0, some m1, some m2], seen := 2, vms := [vm2, vm1], pass := [vm2, vm1] }

theorem twoVMs_reached : Steps false false { hist := [some m0] } twoVMs := by
  have s1 : Steps false false { hist := [some m0] } { hist := [some m0], busy := some (demoEnv, m0) } := .tail .refl (.missing demoEnv m0 rfl rfl demo_creates)
  have s2 : Steps false false { hist := [some m0] } { hist := [some m0], vms := [vm1] } := s1.tail (.created (demoEnv, m0) (some vm1) rfl)
  have s3 : Steps false false { hist := [some m0] } { hist := [some m0], vms := [vm1], busy := some (demoEnv, m0) } := s2.tail (.missing demoEnv m0 rfl rfl demo_creates)
  have s4 : Steps false false { hist := [some m0] } { hist := [some m0], vms := [vm2, vm1] } := s3.tail (.created (demoEnv, m0) (some vm2) rfl)
  have s5 : Steps false false { hist := [some m0] } { hist := [some m0, some m1], vms := [vm2, vm1] } := s4.tail (.write m0 m1 rfl (.inl ⟨found, rfl⟩))
  have s6 : Steps false false { hist := [some m0] } { hist := [some m0, some m1, some m2], vms := [vm2, vm1] } := s5.tail (.write m1 m2 rfl (.inl ⟨found, rfl⟩))
  have s7 : Steps false false { hist := [some m0] } { hist := [some m0, some m1, some m2], seen := 1, vms := [vm2, vm1] } := s6.tail (.deliver (by decide))
  have s8 : Steps false false { hist := [some m0] } { hist := [some m0, some m1, some m2], seen := 2, vms := [vm2, vm1] } := s7.tail (.deliver (by decide))
  exact s8.tail (.list rfl rfl)

/-- a settled machine with a second VM, as it may come about with a provider without `GetMachineStatus` (`C26_unimplemented_false`): the hypotheses of `C107_collects` are met, and the
pass leaves the recorded VM -/
example : Settled twoVMs ∧ twoVMs.busy = none ∧ twoVMs.pass = twoVMs.vms
    ∧ Steps false false twoVMs { hist := [some m0, some m1, some m2], seen := 2, vms := [vm1] } := by
  refine ⟨.inr ⟨m2, rfl, (by rintro (h | h) <;> cases h), by decide⟩, rfl, rfl, ?_⟩
  have t1 : Steps false false twoVMs { hist := [some m0, some m1, some m2], seen := 2, vms := [vm2, vm1], pass := [vm1], doomed := some vm2 } :=
    .tail .refl (.check vm2 [vm1] rfl rfl)
  have t2 : Steps false false twoVMs { hist := [some m0, some m1, some m2], seen := 2, vms := [vm1], pass := [vm1] } := t1.tail (.strike vm2 rfl)
  exact t2.tail (.check vm1 [] rfl rfl)

/-- a VM that is created when its object has gone: the hypotheses of `C107_nothing_left` are met -/
example : ∃ s, Steps false false { hist := [some m0] } s ∧ 0 < s.seen ∧ s.cache = none ∧ s.busy = none ∧ s.pass = s.vms ∧ s.vms = [vm1] := by
  have s1 : Steps false false { hist := [some m0] } { hist := [some m0], busy := some (demoEnv, m0) } := .tail .refl (.missing demoEnv m0 rfl rfl demo_creates)
  have s2 : Steps false false { hist := [some m0] } { hist := [some m0, none], busy := some (demoEnv, m0) } := s1.tail (.remove m0 rfl)
  have s3 : Steps false false { hist := [some m0] } { hist := [some m0, none], seen := 1, busy := some (demoEnv, m0) } := s2.tail (.deliver (by decide))
  have s4 : Steps false false { hist := [some m0] } { hist := [some m0, none], seen := 1, vms := [vm1] } := s3.tail (.created (demoEnv, m0) (some vm1) rfl)
  have s5 : Steps false false { hist := [some m0] } { hist := [some m0, none], seen := 1, vms := [vm1], pass := [vm1] } := s4.tail (.list rfl rfl)
  exact ⟨_, s5, by decide, rfl, rfl, rfl, rfl⟩

/-- a machine whose VM came up under a node of another machine (machine.go:529-549): Failed, without a provider id -/
def lost : Obj := { finalizer := true, st := { phase := .failed } }
/-- `GetMachineStatus` fails for another reason -/
def broken : Env := { status := .err (render .internal "x") none }
/-- what is written then -/
def again : Obj := ((reconcile broken lost).wrote).getD lost
def found1 : Obj := labelled again "node-1" "prov:///vm-1"
def pending1 : Obj := { found1 with st := pendingStatus found found1 }

theorem internal_decodes : fromError (render .internal "x") = some (.internal, "x") :=
  (C32_round_trip_iff .internal trivial _).2 ⟨fun p hp => by
    rw [List.count_eq_zero.2 (fun h => absurd (hp.subset h) (by decide))]; exact Nat.zero_le _, by decide⟩

theorem again_eq : (reconcile broken lost).wrote = some again ∧ again.finalizer = true ∧ again.deleting = false ∧ again.node = none ∧ again.pid = "" ∧ again.prio = none
    ∧ again.st.phase = .crashLoopBackOff := by
  have h : (reconcile broken lost).wrote = (createError broken lost (render .internal "x") "" [.getStatus broken.status]).wrote := by
    unfold reconcile
    rw [if_neg (by decide), if_neg (by decide), if_neg (by decide), if_neg (by decide), if_neg (by decide), if_pos (by decide)]
    unfold creation
    rw [if_neg (by decide)]
    dsimp only [broken]
    rw [internal_decodes]
  have hp : failurePhase broken lost = .crashLoopBackOff := by decide
  obtain ⟨st, hw, hst⟩ : ∃ st : MStatus, (createError broken lost (render .internal "x") "" [.getStatus broken.status]).wrote = some { lost with st := st }
      ∧ st.phase = .crashLoopBackOff := by
    unfold createError
    dsimp only
    unfold withStatus
    rw [hp]
    unfold statusUpdate
    have hs : ∀ n : MStatus, n.phase = .crashLoopBackOff → isSimilar broken.now n lost.st = false := by
      intro n hn
      unfold isSimilar
      rw [hn]
      split
      · rfl
      · simp [lost]
    rw [hs _ rfl]
    exact ⟨_, rfl, rfl⟩
  have ha : again = { lost with st := st } := by
    unfold again
    rw [h, hw]
    rfl
  rw [h, hw, ha]
  exact ⟨rfl, rfl, rfl, rfl, rfl, rfl, hst⟩

attribute [local irreducible] again

theorem found1_written : (reconcile found again).wrote = some found1 := by
  obtain ⟨_, h1, h2, h3, h4, h5, h6⟩ := again_eq
  unfold reconcile
  rw [if_neg (by simp [h2]), if_neg (by decide), if_neg (by decide), if_neg (by simp [h1]), if_neg (by simp [h3]), if_pos (.inl h4)]
  have hn : needsLabels again = true := by simp [needsLabels, h3]
  unfold creation
  rw [if_neg (by decide)]
  dsimp only [found]
  unfold record
  rw [hn]
  rfl

theorem pending1_written : (reconcile found found1).wrote = some pending1 := by
  obtain ⟨_, h1, h2, h3, h4, h5, h6⟩ := again_eq
  have e1 : found1.finalizer = true := h1
  have e2 : found1.deleting = false := h2
  have e3 : found1.prio = some "3" := by
    show (if again.prio.getD "" = "" then some "3" else again.prio) = _
    rw [h5]; rfl
  have e4 : found1.st.phase = .crashLoopBackOff := h6
  have e5 : found1.node = some "node-1" := rfl
  have e6 : found1.pid = "prov:///vm-1" := rfl
  unfold reconcile
  rw [if_neg (by simp [e2]), if_neg (by decide), if_neg (by decide), if_neg (by simp [e1]), if_neg (by simp [found]), if_pos (.inr (.inr e4))]
  have hn : needsLabels found1 = false := by simp [needsLabels, e3, e5, e6]
  unfold creation
  rw [if_neg (by decide)]
  dsimp only [found]
  unfold record
  rw [hn]
  dsimp only
  rw [if_neg (by decide), if_neg (by decide), if_pos (.inr e4)]
  rfl

theorem lost_begun : Begun { hist := [some lost] } := ⟨rfl, rfl, rfl, rfl, rfl, nofun⟩

/-- **C107 is false of the code** for machines whose creation had been given up: such a machine may yet be put back into creation and become Pending, and a pass that looked at it
before that deletes its VM. -/
theorem C107_given_up_false : ∃ (s t : S) (vm : VM) (o : Obj), Begun s ∧ Steps false false s t ∧ t.doomed = some vm ∧ vm ∈ t.vms ∧ t.store = some o
    ∧ o.st.phase = .pending ∧ o.deleting = false ∧ o.pid = vm.pid := by
  have hc : creates demoEnv lost = true := creates_of_none ⟨rfl, rfl, rfl, rfl, rfl, rfl, rfl, rfl, rfl, .inl rfl⟩ rfl rfl (.inl notFound_decodes)
  have s1 : Steps false false { hist := [some lost] } { hist := [some lost, some again] } := .tail .refl (.write lost again rfl (.inl ⟨broken, again_eq.1⟩))
  have s2 : Steps false false { hist := [some lost] } { hist := [some lost, some again], busy := some (demoEnv, lost) } := s1.tail (.missing demoEnv lost rfl rfl hc)
  have s3 : Steps false false { hist := [some lost] } { hist := [some lost, some again], vms := [vm1] } := s2.tail (.created (demoEnv, lost) (some vm1) rfl)
  have s4 : Steps false false { hist := [some lost] } { hist := [some lost, some again], vms := [vm1], pass := [vm1] } := s3.tail (.list rfl rfl)
  have s5 : Steps false false { hist := [some lost] } { hist := [some lost, some again], vms := [vm1], doomed := some vm1 } := s4.tail (.check vm1 [] rfl rfl)
  have s6 : Steps false false { hist := [some lost] } { hist := [some lost, some again, some found1], vms := [vm1], doomed := some vm1 } :=
    s5.tail (.write again found1 rfl (.inl ⟨found, found1_written⟩))
  have s7 : Steps false false { hist := [some lost] } { hist := [some lost, some again, some found1, some pending1], vms := [vm1], doomed := some vm1 } :=
    s6.tail (.write found1 pending1 rfl (.inl ⟨found, pending1_written⟩))
  exact ⟨_, _, vm1, pending1, lost_begun, s7, rfl, List.mem_singleton.2 rfl, rfl, rfl, again_eq.2.2.1, rfl⟩

/-- the hypotheses of `C107_spares_machines_partial` are met by the same execution, with the exception it allows -/
example : GivenUp lost := ⟨(by rintro (h | h) <;> cases h), rfl⟩

end MCM.Collector
