import Verif.Model.Retry
/-!
C87: updates end and tell the truth.
-/
namespace MCM.Retry

/-- The update is over by itself, whatever the API server answers. -/
def Over {α : Type} (a : Ans α × List α) (calls : Nat) : Prop := a.1 ≠ .running ∧ a.2.length ≤ calls

/-- A success means that the last thing sent is stored, or that nothing was sent. -/
def Honest {α : Type} (a : Ans α × List α) : Prop :=
  (∀ v, a.1 = .done (some v) → a.2.getLast? = some v) ∧ (a.1 = .done none → a.2 = [])

/-- Each request carries an edit of what the same attempt read: the `j`-th request an edit of the `j`-th answer. -/
def Edits {α : Type} (get : Nat → Option α) (edit : α → α → Prop) (sent : List α) : Prop :=
  ∀ j s, sent[j]? = some s → ∃ latest, get j = some latest ∧ edit latest s

theorem edits_cons {α : Type} {get : Nat → Option α} {edit : α → α → Prop} {x a : α} {l : List α} {i : Nat} (hg : get i = some a) (hx : edit a x)
    (h : Edits (fun j => get (i + 1 + j)) edit l) : Edits (fun j => get (i + j)) edit (x :: l) := by
  intro j s hs
  cases j with
  | zero => obtain rfl : x = s := Option.some.inj hs; exact ⟨a, hg, hx⟩
  | succ j =>
    obtain ⟨b, hb, he⟩ := h j s hs
    exact ⟨b, by rw [← hb]; show get (i + (j + 1)) = get (i + 1 + j); congr 1; omega, he⟩

theorem edits_one {α : Type} {get : Nat → Option α} {edit : α → α → Prop} {x a : α} {i : Nat} (hg : get i = some a) (hx : edit a x) :
    Edits (fun j => get (i + j)) edit [x] := edits_cons hg hx (fun _ _ h => by simp at h)

theorem edits_nil {α : Type} {get : Nat → Option α} {edit : α → α → Prop} : Edits get edit [] := fun _ _ h => by simp at h

theorem edits_zero {α : Type} {get : Nat → Option α} {edit : α → α → Prop} {l : List α} (h : Edits (fun j => get (0 + j)) edit l) : Edits get edit l := by
  intro j s hs
  obtain ⟨a, ha, he⟩ := h j s hs
  exact ⟨a, by rw [← ha]; show get j = get (0 + j); rw [Nat.zero_add], he⟩

/-- the finalizers are the given ones, the rest is as it was -/
def Finalizers (fs : List String) (old new : Obj) : Prop := new.finalizers = fs ∧ new.rest = old.rest

/-- operation and phase are the given ones, the rest is as it was -/
def Notes (op : Op) (cur : Cur) (old new : Status) : Prop := new.op = op ∧ new.cur = cur ∧ new.rest = old.rest

theorem honest_none {α : Type} : Honest ((.done none, []) : Ans α × List α) := ⟨fun _ h => (nomatch h), fun _ => rfl⟩

theorem getLast_cons {α : Type} (x : α) (l : List α) (v : α) (h : l.getLast? = some v) : (x :: l).getLast? = some v := by
  rw [List.getLast?_cons, h]; rfl

/-! ## machine sets: finalizers -/

theorem setFin_aux (e : Env Obj) (fs : List String) (n i : Nat) :
    Over (updateSetFinalizersLoop e fs n i) n ∧
    (∀ v, (updateSetFinalizersLoop e fs n i).1 = .done (some v) → (updateSetFinalizersLoop e fs n i).2.getLast? = some v) ∧
    (updateSetFinalizersLoop e fs n i).1 ≠ .done none ∧
    Edits (fun j => e.get (i + j)) (Finalizers fs) (updateSetFinalizersLoop e fs n i).2 := by
  induction n generalizing i with
  | zero => exact ⟨⟨nofun, by simp [updateSetFinalizersLoop]⟩, nofun, nofun, edits_nil⟩
  | succ n ih =>
    rw [updateSetFinalizersLoop]
    cases hg : e.get i with
    | none => exact ⟨⟨nofun, by simp⟩, nofun, nofun, edits_nil⟩
    | some latest =>
      dsimp only
      cases ho : e.ok i with
      | true =>
        rw [if_pos rfl]
        exact ⟨⟨nofun, by simp⟩, fun v h => by cases h; rfl, nofun, edits_one hg ⟨rfl, rfl⟩⟩
      | false =>
        rw [if_neg (by simp)]
        obtain ⟨⟨h1, h2⟩, h3, h4, h5⟩ := ih (i + 1)
        exact ⟨⟨h1, by simp only [List.length_cons]; omega⟩, fun v h => getLast_cons _ _ _ (h3 v h), h4, edits_cons hg ⟨rfl, rfl⟩ h5⟩

/-- C87: The update of a machine set's finalizers ends after at most two writes; success means it is stored; nothing but finalizers is changed of
what was read just before. -/
theorem C87_set_finalizers (e : Env Obj) (fs : List String) :
    Over (updateSetFinalizers e fs) 2 ∧ Honest (updateSetFinalizers e fs) ∧
    Edits e.get (Finalizers fs) (updateSetFinalizers e fs).2 := by
  obtain ⟨h1, h2, h3, h4⟩ := setFin_aux e fs 2 0
  exact ⟨h1, ⟨h2, fun h => absurd h h3⟩, edits_zero h4⟩

/-- C87: One refused write of a machine set's finalizers is repeated. -/
theorem C87_set_finalizers_retried (e : Env Obj) (fs : List String) (hg : (e.get 0).isSome = true ∧ (e.get 1).isSome = true) (h : e.ok 0 = true ∨ e.ok 1 = true) :
    ∃ v, (updateSetFinalizers e fs).1 = .done (some v) := by
  obtain ⟨a, ha⟩ := Option.isSome_iff_exists.1 hg.1
  obtain ⟨b, hb⟩ := Option.isSome_iff_exists.1 hg.2
  unfold updateSetFinalizers finalizerUpdateRetries
  rw [updateSetFinalizersLoop, ha]
  dsimp only
  cases h0 : e.ok 0 with
  | true => exact ⟨_, rfl⟩
  | false =>
    rw [if_neg (by simp), updateSetFinalizersLoop, hb]
    dsimp only
    have h1 : e.ok 1 = true := by rcases h with h | h; rw [h0] at h; cases h; exact h
    rw [h1, if_pos rfl]
    exact ⟨_, rfl⟩

/-! ## machine sets: status -/

/-- what the `j`-th status of a machine set is written on: the object passed, then what was read after the refusal -/
def base (is : MSet) (get : Nat → Option MSet) : Nat → Option MSet
  | 0 => some is
  | j + 1 => get j

/-- status and observed generation are the given ones, the rest is as it was -/
def Reports (st : String) (observed : Nat) (old new : MSet) : Prop :=
  new.status = st ∧ new.observed = observed ∧ new.generation = old.generation ∧ new.rest = old.rest

theorem edits_base {is latest : MSet} {get : Nat → Option MSet} {st : String} {ob i : Nat} {l : List MSet} (hg : get i = some latest)
    (h : Edits (base latest fun j => get (i + 1 + j)) (Reports st ob) l) :
    Edits (base is fun j => get (i + j)) (Reports st ob) ({ is with status := st, observed := ob } :: l) := by
  intro j s hs
  cases j with
  | zero => obtain rfl := Option.some.inj hs; exact ⟨is, rfl, rfl, rfl, rfl, rfl⟩
  | succ j =>
    obtain ⟨b, hb, he⟩ := h j s hs
    refine ⟨b, ?_, he⟩
    cases j with
    | zero => exact hg.trans hb
    | succ j => rw [← hb]; show get (i + (j + 1)) = get (i + 1 + j); congr 1; omega

theorem edits_base_one {is : MSet} {get : Nat → Option MSet} {st : String} {ob : Nat} :
    Edits (base is get) (Reports st ob) [{ is with status := st, observed := ob }] := by
  intro j s hs
  cases j with
  | zero => obtain rfl := Option.some.inj hs; exact ⟨is, rfl, rfl, rfl, rfl, rfl⟩
  | succ j => simp at hs

theorem setStatus_aux (e : Env MSet) (st : String) (ob : Nat) (n i : Nat) (is : MSet) :
    Over (updateSetStatusLoop e st ob n i is) (n + 1) ∧
    (∀ v, (updateSetStatusLoop e st ob n i is).1 = .done (some v) → (updateSetStatusLoop e st ob n i is).2.getLast? = some v) ∧
    (updateSetStatusLoop e st ob n i is).1 ≠ .done none ∧
    Edits (base is fun j => e.get (i + j)) (Reports st ob) (updateSetStatusLoop e st ob n i is).2 := by
  induction n generalizing i is with
  | zero =>
    rw [updateSetStatusLoop]
    cases ho : e.ok i with
    | true =>
      rw [if_pos rfl]
      exact ⟨⟨nofun, by simp⟩, fun v h => by cases h; rfl, nofun, edits_base_one⟩
    | false =>
      rw [if_neg (by simp)]
      exact ⟨⟨nofun, by simp⟩, nofun, nofun, edits_base_one⟩
  | succ n ih =>
    rw [updateSetStatusLoop]
    cases ho : e.ok i with
    | true =>
      rw [if_pos rfl]
      exact ⟨⟨nofun, by simp⟩, fun v h => by cases h; rfl, nofun, edits_base_one⟩
    | false =>
      rw [if_neg (by simp)]
      cases hg : e.get i with
      | none => exact ⟨⟨nofun, by simp⟩, nofun, nofun, edits_base_one⟩
      | some latest =>
        dsimp only
        obtain ⟨⟨h1, h2⟩, h3, h4, h5⟩ := ih (i + 1) latest
        exact ⟨⟨h1, by simp only [List.length_cons]; omega⟩, fun v h => getLast_cons _ _ _ (h3 v h), h4, edits_base hg h5⟩

/-- C87: The update of a machine set's status ends after at most two writes, success means that it is stored (or was already there), and the observed generation is that of the
object the status was computed from, even when the write is repeated on a newer object. Nothing else of the object is changed. -/
theorem C87_set_status (e : Env MSet) (is : MSet) (st : String) :
    Over (updateSetStatus e is st) 2 ∧ Honest (updateSetStatus e is st) ∧
    Edits (base is e.get) (Reports st is.generation) (updateSetStatus e is st).2 ∧
    ((updateSetStatus e is st).1 = .done none ↔ is.status = st ∧ is.observed = is.generation) := by
  unfold updateSetStatus
  by_cases h : is.status = st ∧ is.generation = is.observed
  · rw [if_pos h]
    exact ⟨⟨nofun, by simp⟩, honest_none, edits_nil, fun _ => ⟨h.1, h.2.symm⟩, fun _ => rfl⟩
  · rw [if_neg h]
    obtain ⟨h1, h2, h3, h4⟩ := setStatus_aux e st is.generation 1 0 is
    refine ⟨h1, ⟨h2, fun h' => absurd h' h3⟩, ?_, fun h' => absurd h' h3, fun h' => absurd ⟨h'.1, h'.2.symm⟩ h⟩
    intro j s hs
    obtain ⟨b, hb, he⟩ := h4 j s hs
    refine ⟨b, ?_, he⟩
    cases j with
    | zero => exact hb
    | succ j => rw [← hb]; show e.get j = e.get (0 + j); rw [Nat.zero_add]

/-! ## updates of cached objects -/

theorem withRetries_aux {α : Type} (e : CacheEnv α) (f : α → Applied α) (n i : Nat) :
    Over (withRetriesLoop e f n i) n ∧
    (∀ v, (withRetriesLoop e f n i).1 = .done (some v) → (withRetriesLoop e f n i).2.getLast? = some v) ∧
    Edits (fun j => e.get (i + j)) (fun a s => f a = .value s) (withRetriesLoop e f n i).2 ∧
    ((withRetriesLoop e f n i).1 = .done none → ∃ a, e.get (i + (withRetriesLoop e f n i).2.length) = some a ∧ f a = .precondition) := by
  induction n generalizing i with
  | zero => exact ⟨⟨nofun, by simp [withRetriesLoop]⟩, nofun, edits_nil, nofun⟩
  | succ n ih =>
    rw [withRetriesLoop]
    cases hg : e.get i with
    | none => exact ⟨⟨nofun, by simp⟩, nofun, edits_nil, nofun⟩
    | some a =>
      dsimp only
      cases hf : f a with
      | error => exact ⟨⟨nofun, by simp⟩, nofun, edits_nil, nofun⟩
      | precondition => exact ⟨⟨nofun, by simp⟩, nofun, edits_nil, fun _ => ⟨a, hg, hf⟩⟩
      | value b =>
        dsimp only
        cases hu : e.upd i with
        | ok =>
          exact ⟨⟨nofun, by simp⟩, fun v h => by cases h; rfl, edits_one hg hf, nofun⟩
        | other => exact ⟨⟨nofun, by simp⟩, nofun, edits_one hg hf, nofun⟩
        | conflict =>
          dsimp only
          obtain ⟨⟨h1, h2⟩, h3, h5, h4⟩ := ih (i + 1)
          refine ⟨⟨h1, by simp only [List.length_cons]; omega⟩, fun v h => getLast_cons _ _ _ (h3 v h), edits_cons hg hf h5, fun h => ?_⟩
          obtain ⟨c, hc, hp⟩ := h4 h
          exact ⟨c, by rw [← hc, List.length_cons]; congr 1; omega, hp⟩

/-- C87: An update of a cached object ends after at most four writes; each is the edit of what the cache held for that attempt; success means that the last is stored, or that what
the cache held after the last refusal made the edit unnecessary. -/
theorem C87_cached_update {α : Type} (e : CacheEnv α) (f : α → Applied α) :
    Over (withRetries e f) 4 ∧ (∀ v, (withRetries e f).1 = .done (some v) → (withRetries e f).2.getLast? = some v) ∧
    Edits e.get (fun a s => f a = .value s) (withRetries e f).2 ∧
    ((withRetries e f).1 = .done none → ∃ a, e.get (withRetries e f).2.length = some a ∧ f a = .precondition) := by
  obtain ⟨h1, h2, h3, h4⟩ := withRetries_aux e f 4 0
  exact ⟨h1, h2, edits_zero h3, by rw [Nat.zero_add] at h4; exact h4⟩

/-- C87: Conflicts are repeated, with the cached object of that moment: if the first three writes meet a conflict and the fourth is accepted, the update succeeds. -/
theorem C87_cached_update_retried {α : Type} (e : CacheEnv α) (g : α → α) (o : Nat → α) (k : Nat) (hk : k < 4) (hget : ∀ i, e.get i = some (o i))
    (hc : ∀ i, i < k → e.upd i = .conflict) (hok : e.upd k = .ok) : (withRetries e fun a => .value (g a)).1 = .done (some (g (o k))) := by
  have aux : ∀ n i, i ≤ k → k < i + n → (withRetriesLoop e (fun a => .value (g a)) n i).1 = .done (some (g (o k))) := by
    intro n
    induction n with
    | zero => intro i h1 h2; omega
    | succ n ih =>
      intro i h1 h2
      rw [withRetriesLoop, hget]
      dsimp only
      by_cases hik : i = k
      · subst hik; rw [hok]
      · rw [hc i (by omega)]
        exact ih (i + 1) (by omega) (by omega)
  exact aux 4 0 (by omega) (by omega)

/-- C87: An update the cached object makes unnecessary is reported as success without a call; an error of the edit is reported as failure without a call. -/
theorem C87_cached_update_unnecessary {α : Type} (e : CacheEnv α) (f : α → Applied α) (a : α) (h : e.get 0 = some a) :
    (f a = .precondition → withRetries e f = (.done none, [])) ∧ (f a = .error → withRetries e f = (.failed, [])) := by
  refine ⟨fun hf => ?_, fun hf => ?_⟩ <;>
  · unfold withRetries
    rw [withRetriesLoop, h]
    dsimp only
    rw [hf]

/-! ## machines: status -/

theorem status_aux (e : Env Status) (cached : Status) (op : Op) (cur : Cur) (fuel i : Nat) :
    (∀ v, (updateStatus e cached op cur fuel i).1 = .done (some v) → (updateStatus e cached op cur fuel i).2.getLast? = some v) ∧
    Edits (fun j => e.get (i + j)) (Notes op cur) (updateStatus e cached op cur fuel i).2 ∧
    ((updateStatus e cached op cur fuel i).1 = .done none → ∃ latest : Status,
      isEqual (e.now (i + (updateStatus e cached op cur fuel i).2.length)) { latest with op := op, cur := cur } cached = true) := by
  induction fuel generalizing i with
  | zero => exact ⟨nofun, edits_nil, nofun⟩
  | succ fuel ih =>
    rw [updateStatus]
    cases hg : e.get i with
    | none => exact ⟨nofun, edits_nil, nofun⟩
    | some latest =>
      dsimp only
      split
      · rename_i heq; exact ⟨nofun, edits_nil, fun _ => ⟨latest, heq⟩⟩
      · split
        · exact ⟨fun v h => by cases h; rfl, edits_one hg ⟨rfl, rfl, rfl⟩, nofun⟩
        · obtain ⟨h1, h2, h3⟩ := ih (i + 1)
          refine ⟨fun v h => getLast_cons _ _ _ (h1 v h), edits_cons hg ⟨rfl, rfl, rfl⟩ h2, fun h => ?_⟩
          obtain ⟨c, hc⟩ := h3 h
          exact ⟨c, by rw [← hc, List.length_cons]; congr 2; omega⟩

/-- C87: Every status sent for a machine is the wanted operation and phase on a state just read, and what is reported as stored was the last sent. -/
theorem C87_machine_status_sent (e : Env Status) (cached : Status) (op : Op) (cur : Cur) (fuel : Nat) :
    (∀ v, (updateStatus e cached op cur fuel 0).1 = .done (some v) → (updateStatus e cached op cur fuel 0).2.getLast? = some v) ∧
    Edits e.get (Notes op cur) (updateStatus e cached op cur fuel 0).2 :=
  ⟨(status_aux e cached op cur fuel 0).1, edits_zero (status_aux e cached op cur fuel 0).2.1⟩

theorem isEqual_spec (now : Int) (latest cached : Status) (op : Op) (cur : Cur) (h : isEqual now { latest with op := op, cur := cur } cached = true) :
    cached.op.state = op.state ∧ cached.op.type = op.type ∧ cached.cur.phase = cur.phase ∧ cached.cur.timeoutActive = cur.timeoutActive ∧
    now - cached.op.time ≤ 1800000000000 ∧ now - cached.cur.time ≤ 1800000000000 := by
  unfold isEqual tolerance at h
  split at h
  · cases h
  · split at h
    · cases h
    · rename_i h1 h2
      simp only [Bool.or_eq_true, decide_eq_true_eq, not_or, Bool.and_eq_true, beq_iff_eq] at h1 h2 h
      obtain ⟨⟨⟨a, b⟩, c⟩, d⟩ := h
      exact ⟨a.symm, b.symm, c.symm, d.symm, by omega, by omega⟩

/-- C87: The write is left out only if the cached machine already has the wanted operation and phase, noted within the half hour before
the attempt that left it out. -/
theorem C87_machine_status_left_out (e : Env Status) (cached : Status) (op : Op) (cur : Cur) (fuel : Nat) (h : (updateStatus e cached op cur fuel 0).1 = .done none) :
    cached.op.state = op.state ∧ cached.op.type = op.type ∧ cached.cur.phase = cur.phase ∧ cached.cur.timeoutActive = cur.timeoutActive ∧
    e.now (updateStatus e cached op cur fuel 0).2.length - cached.op.time ≤ 1800000000000 ∧
    e.now (updateStatus e cached op cur fuel 0).2.length - cached.cur.time ≤ 1800000000000 := by
  obtain ⟨latest, hj⟩ := (status_aux e cached op cur fuel 0).2.2 h
  rw [Nat.zero_add] at hj
  exact isEqual_spec _ _ _ _ _ hj

/-- C87, partial: the update of a machine's status ends after at most `k + 1` writes if the `k`-th attempt (counted from nought) can read the machine no longer or is accepted. -/
theorem C87_machine_status_ends_partial (e : Env Status) (cached : Status) (op : Op) (cur : Cur) (k : Nat) (h : e.get k = none ∨ e.ok k = true) (fuel : Nat) (hf : k < fuel) :
    Over (updateStatus e cached op cur fuel 0) (k + 1) := by
  have aux : ∀ fuel i, i ≤ k → k < i + fuel → Over (updateStatus e cached op cur fuel i) (k + 1 - i) := by
    intro fuel
    induction fuel with
    | zero => intro i h1 h2; omega
    | succ fuel ih =>
      intro i h1 h2
      rw [updateStatus]
      cases hg : e.get i with
      | none => exact ⟨nofun, by simp⟩
      | some latest =>
        dsimp only
        split
        · exact ⟨nofun, by simp⟩
        · split
          · exact ⟨nofun, by simp only [List.length_singleton]; omega⟩
          · rename_i hno
            have hik : i ≠ k := by
              rintro rfl
              rcases h with h | h
              · rw [hg] at h; cases h
              · exact hno h
            obtain ⟨h3, h4⟩ := ih (i + 1) (by omega) (by omega)
            exact ⟨h3, by simp only [List.length_cons]; omega⟩
  exact aux fuel 0 (by omega) (by omega)

/-- C87, false: If the API server refuses the status of one machine (a webhook, for example), the update is sent for ever, without a pause, the termination of the set's machines
never returns, and with it the reconcile of the set. This holds whatever other machines are to be terminated. -/
theorem C87_refused_status_blocks_false (now : Nat → Int) (latest : Nat → Status) (cached : Status) (op : Op) (cur : Cur) (hd : cached.cur.phase ≠ cur.phase)
    (ms : List (Env Status × Status)) (hm : (⟨now, fun i => some (latest i), fun _ => false⟩, cached) ∈ ms) :
    ∀ fuel, (updateStatus ⟨now, fun i => some (latest i), fun _ => false⟩ cached op cur fuel 0).2.length = fuel ∧ terminateReturned fuel ms op cur = false := by
  have aux : ∀ fuel i, (updateStatus ⟨now, fun i => some (latest i), fun _ => false⟩ cached op cur fuel i).2.length = fuel ∧
      (updateStatus ⟨now, fun i => some (latest i), fun _ => false⟩ cached op cur fuel i).1 = .running := by
    intro fuel
    induction fuel with
    | zero => intro i; exact ⟨rfl, rfl⟩
    | succ fuel ih =>
      intro i
      rw [updateStatus]
      dsimp only
      rw [if_neg (fun h => hd (isEqual_spec _ _ _ _ _ h).2.2.1), if_neg (by simp)]
      exact ⟨by simp only [List.length_cons, (ih (i + 1)).1], (ih (i + 1)).2⟩
  intro fuel
  refine ⟨(aux fuel 0).1, ?_⟩
  unfold terminateReturned
  rw [Bool.eq_false_iff]
  intro h
  have := List.all_eq_true.1 h _ hm
  dsimp only at this
  rw [(aux fuel 0).2] at this
  exact absurd this (by decide)

/-- C87, false: The comparison is with the cached machine, not the one just read: the update can report success though the machine has another phase and nothing was sent. -/
theorem C87_compared_with_cache_false : ∃ (e : Env Status) (cached latest : Status) (op : Op) (cur : Cur), e.get 0 = some latest ∧ latest.cur.phase ≠ cur.phase ∧
    updateStatus e cached op cur 1 0 = (.done none, []) :=
  ⟨⟨fun _ => 0, fun _ => some ⟨⟨"", 0, "Failed", "HealthCheck"⟩, ⟨"Failed", false, 0⟩, ""⟩, fun _ => true⟩,
    ⟨⟨"", 0, "Processing", "Delete"⟩, ⟨"Terminating", false, 0⟩, ""⟩, ⟨⟨"", 0, "Failed", "HealthCheck"⟩, ⟨"Failed", false, 0⟩, ""⟩,
    ⟨"", 0, "Processing", "Delete"⟩, ⟨"Terminating", false, 0⟩, rfl, by decide, by decide⟩

/-! ## deployments: finalizers -/

/-- C87, partial: the update of a deployment's finalizers ends after at most `k + 1` writes if the `k`-th attempt can read it no longer or is accepted, and changes nothing else. -/
theorem C87_deployment_finalizers_partial (e : Env Obj) (fs : List String) (k : Nat) (h : e.get k = none ∨ e.ok k = true) (fuel : Nat) (hf : k < fuel) :
    Over (updateDepFinalizers e fs fuel 0) (k + 1) ∧ Honest (updateDepFinalizers e fs fuel 0) ∧
    Edits e.get (Finalizers fs) (updateDepFinalizers e fs fuel 0).2 := by
  have aux : ∀ fuel i, i ≤ k → k < i + fuel → Over (updateDepFinalizers e fs fuel i) (k + 1 - i) ∧
      (∀ v, (updateDepFinalizers e fs fuel i).1 = .done (some v) → (updateDepFinalizers e fs fuel i).2.getLast? = some v) ∧ (updateDepFinalizers e fs fuel i).1 ≠ .done none ∧
      Edits (fun j => e.get (i + j)) (Finalizers fs) (updateDepFinalizers e fs fuel i).2 := by
    intro fuel
    induction fuel with
    | zero => intro i h1 h2; omega
    | succ fuel ih =>
      intro i h1 h2
      rw [updateDepFinalizers]
      cases hg : e.get i with
      | none => exact ⟨⟨nofun, by simp⟩, nofun, nofun, edits_nil⟩
      | some latest =>
        dsimp only
        split
        · exact ⟨⟨nofun, by simp only [List.length_singleton]; omega⟩, fun v h => by cases h; rfl, nofun,
            edits_one hg ⟨rfl, rfl⟩⟩
        · rename_i hno
          have hik : i ≠ k := by
            rintro rfl
            rcases h with h | h
            · rw [hg] at h; cases h
            · exact hno h
          obtain ⟨⟨h3, h4⟩, h5, h6, h7⟩ := ih (i + 1) (by omega) (by omega)
          exact ⟨⟨h3, by simp only [List.length_cons]; omega⟩, fun v h => getLast_cons _ _ _ (h5 v h), h6, edits_cons hg ⟨rfl, rfl⟩ h7⟩
  obtain ⟨h1, h2, h3, h4⟩ := aux fuel 0 (by omega) (by omega)
  exact ⟨h1, ⟨h2, fun h => absurd h h3⟩, edits_zero h4⟩

/-- C87, false: If the API server refuses the finalizers of a deployment, they are sent for ever. -/
theorem C87_refused_finalizers_false (fs : List String) (latest : Nat → Obj) :
    ∀ fuel, (updateDepFinalizers ⟨fun _ => 0, fun i => some (latest i), fun _ => false⟩ fs fuel 0).1 = .running ∧
      (updateDepFinalizers ⟨fun _ => 0, fun i => some (latest i), fun _ => false⟩ fs fuel 0).2.length = fuel := by
  have aux : ∀ fuel i, (updateDepFinalizers ⟨fun _ => 0, fun i => some (latest i), fun _ => false⟩ fs fuel i).1 = .running ∧
      (updateDepFinalizers ⟨fun _ => 0, fun i => some (latest i), fun _ => false⟩ fs fuel i).2.length = fuel := by
    intro fuel
    induction fuel with
    | zero => intro i; exact ⟨rfl, rfl⟩
    | succ fuel ih =>
      intro i
      rw [updateDepFinalizers]
      dsimp only
      rw [if_neg (by simp)]
      exact ⟨(ih (i + 1)).1, by simp only [List.length_cons, (ih (i + 1)).2]⟩
  exact fun fuel => aux fuel 0

/-! ## cases -/

example : updateSetFinalizers ⟨fun _ => 0, fun _ => some ⟨["a"], "x"⟩, fun i => i == 1⟩ ["a", "b"] = (.done (some ⟨["a", "b"], "x"⟩), [⟨["a", "b"], "x"⟩, ⟨["a", "b"], "x"⟩]) := by decide

example : updateSetStatus ⟨fun _ => 0, fun _ => some ⟨2, "old", 1, "y"⟩, fun i => i == 1⟩ ⟨1, "old", 0, "x"⟩ "new" =
    (.done (some ⟨2, "new", 1, "y"⟩), [⟨1, "new", 1, "x"⟩, ⟨2, "new", 1, "y"⟩]) := by decide

example : (updateStatus ⟨fun _ => 0, fun _ => some {}, fun i => i == 2⟩ {} {} ⟨"Terminating", false, 0⟩ 5 0).2.length = 3 := by decide

end MCM.Retry
