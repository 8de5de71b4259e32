import Verif.Props.Termination
import Verif.Props.Similar
/-!
C24: the termination of a machine makes progress and completes.
-/
namespace MCM.Termination
open MCM MCM.Similar MCM.Codes

/-! ### Specification -/

/-- the text of no step occurs in this text -/
def Clean (s : String) : Prop := ∀ t : TStep, ¬ t.text.toList <:+: s.toList

/-- a name without spaces (Kubernetes names and label values have none) -/
def NameLike (s : String) : Prop := ' ' ∉ s.toList

/-- The outside world cooperates: classes are valid, calls succeed or report that there is nothing to do, volumes are detached. -/
structure Coop (e : Env) : Prop where
  cls : e.classOk = true
  name : ∀ n, nodeName e = .ok n → NameLike n
  status : ∀ text, nodeName e = .error text → ∃ c m, fromError text = some (c, m) ∧
    (c = .unimplemented ∨ c = .notFound ∨ c = .uninitialized)
  cond : e.condErr = none
  drain : e.drainErr = none
  nodeGet : e.nodeGet ≠ .fail
  nodeText : ∀ text, e.nodeGet = .notFound text → Clean text
  vols : e.liveVols = some false
  delVM : e.delVM.err = none ∨ ∃ text m, e.delVM.err = some text ∧ fromError text = some (.notFound, m)
  delNode : ∀ text, e.delNode ≠ .fail text

/-- an object that is being deleted and still carries the finalizer -/
structure Terminating (v : Obj) : Prop where
  fin : v.finalizer = true
  del : v.deleting ≠ none
  name : NameLike v.name
  node : NameLike v.node

/-- reconciles still needed from a given step on -/
def stepLeft (node : String) : Option TStep → Nat
  | none => 8
  | some .getVM => if node = "" then 7 else 6
  | some .drain => 5
  | some .vols => 4
  | some .vm => 3
  | some .node => 2
  | some .fin => 1

/-- a bound on the number of reconciles still needed -/
def left (v : Obj) : Nat :=
  if v.finalizer = false then 0
  else if v.st.phase ≠ .terminating then 8
  else stepLeft v.node (decode v.st.desc)

/-- successive reconciles are more than the similarity tolerance (30 minutes) apart -/
def Paced : Int → List Env → Prop
  | _, [] => True
  | last, e :: es => last < e.now - tolerance ∧ Paced e.now es

/-! ### Lemmas -/

/-- the characters of the step texts (comparing character lists is much cheaper for the kernel than decoding strings) -/
def TStep.chars : TStep → List Char
  | .getVM => ['S', 'e', 't', ' ', 'm', 'a', 'c', 'h', 'i', 'n', 'e', ' ', 's', 't', 'a', 't', 'u', 's', ' ', 't', 'o', ' ', 't', 'e', 'r', 'm', 'i', 'n', 'a', 't', 'i', 'o', 'n', '.', ' ', 'N', 'o', 'w', ',', ' ', 'g', 'e', 't', 't', 'i', 'n', 'g', ' ', 'V', 'M', ' ', 'S', 't', 'a', 't', 'u', 's']
  | .drain => ['I', 'n', 'i', 't', 'i', 'a', 't', 'e', ' ', 'n', 'o', 'd', 'e', ' ', 'd', 'r', 'a', 'i', 'n']
  | .vols => ['D', 'e', 'l', 'e', 't', 'e', ' ', 'V', 'o', 'l', 'u', 'm', 'e', ' ', 'A', 't', 't', 'a', 'c', 'h', 'm', 'e', 'n', 't', 's']
  | .vm => ['I', 'n', 'i', 't', 'i', 'a', 't', 'e', ' ', 'V', 'M', ' ', 'd', 'e', 'l', 'e', 't', 'i', 'o', 'n']
  | .node => ['I', 'n', 'i', 't', 'i', 'a', 't', 'e', ' ', 'n', 'o', 'd', 'e', ' ', 'o', 'b', 'j', 'e', 'c', 't', ' ', 'd', 'e', 'l', 'e', 't', 'i', 'o', 'n']
  | .fin => ['I', 'n', 'i', 't', 'i', 'a', 't', 'e', ' ', 'm', 'a', 'c', 'h', 'i', 'n', 'e', ' ', 'o', 'b', 'j', 'e', 'c', 't', ' ', 'f', 'i', 'n', 'a', 'l', 'i', 'z', 'e', 'r', ' ', 'r', 'e', 'm', 'o', 'v', 'a', 'l']

theorem lit {l : List Char} : (String.ofList l).toList = l := String.toList_ofList

theorem text_chars (t : TStep) : t.text.toList = t.chars := by cases t <;> exact lit

theorem text_space (t : TStep) : ' ' ∈ t.text.toList := by cases t <;> decide
theorem text_ne_nil (t : TStep) : t.text.toList ≠ [] := by cases t <;> decide

theorem NameLike.clean {s : String} (h : NameLike s) : Clean s :=
  fun t hi => h (hi.subset (text_space t))

/-- no step before `s` occurs in `x` -/
def FreeOf (s : TStep) (x : List Char) : Prop := ∀ t : TStep, t.idx < s.idx → ¬ t.text.toList <:+: x

theorem Clean.free {x : String} (h : Clean x) (s : TStep) : FreeOf s x.toList := fun t _ => h t

def okLeft (s : TStep) (a : List Char) : Bool :=
  allSteps.all fun t => decide (s.idx ≤ t.idx) || (!contains a t.chars && noStart t.chars a)
def okRight (s : TStep) (b : List Char) : Bool :=
  allSteps.all fun t => decide (s.idx ≤ t.idx) || (!contains b t.chars && noEnd t.chars b)

theorem mem_allSteps (t : TStep) : t ∈ allSteps := by cases t <;> simp [allSteps]

theorem FreeOf.left {s : TStep} {a x : List Char} (ha : okLeft s a = true) (hx : FreeOf s x) : FreeOf s (a ++ x) := by
  intro t ht hi
  unfold okLeft at ha
  rw [List.all_eq_true] at ha
  have := ha t (mem_allSteps t)
  have h0 : decide (s.idx ≤ t.idx) = false := by simpa using ht
  rw [h0, Bool.false_or, Bool.and_eq_true, ← text_chars] at this
  rcases infix_left this.2 hi with h | h
  · have h1 := this.1
    rw [(contains_iff _ _).2 h] at h1; cases h1
  · exact hx t ht h

theorem FreeOf.right {s : TStep} {b x : List Char} (hb : okRight s b = true) (hx : FreeOf s x) : FreeOf s (x ++ b) := by
  intro t ht hi
  unfold okRight at hb
  rw [List.all_eq_true] at hb
  have := hb t (mem_allSteps t)
  have h0 : decide (s.idx ≤ t.idx) = false := by simpa using ht
  rw [h0, Bool.false_or, Bool.and_eq_true, ← text_chars] at this
  rcases infix_right this.2 hi with h | h
  · exact hx t ht h
  · have h1 := this.1
    rw [(contains_iff _ _).2 h] at h1; cases h1

theorem FreeOf.sep {s : TStep} {a b : List Char} {c : Char} (hc : ∀ t : TStep, c ∉ t.text.toList) (ha : FreeOf s a)
    (hb : FreeOf s b) : FreeOf s (a ++ c :: b) := by
  intro t ht hi
  rcases infix_sep (hc t) hi with h | h
  · exact ha t ht h
  · exact hb t ht h

theorem decode_of_free {s : TStep} {d : String} {x : List Char} (h : d.toList = x ++ s.text.toList) (hf : FreeOf s d.toList) :
    decode d = some s :=
  (C23_decode d s).2 ⟨⟨x, [], by simp [h]⟩, fun t ht => hf t ht⟩

/-- a description `a ++ x ++ b ++ step` with a harmless text `x` -/
theorem decode_frame {s : TStep} {a x b : String} {a' b' : List Char} (ea : a.toList = a') (eb : b.toList = b')
    (ha : okLeft s a' = true) (hb : okRight s (b' ++ s.chars) = true)
    (hx : Clean x) : decode (a ++ x ++ b ++ s.text) = some s := by
  subst ea eb
  rw [← text_chars, ← String.toList_append] at hb
  have e : (a ++ x ++ b ++ s.text).toList = (a.toList ++ x.toList) ++ (b ++ s.text).toList := by
    simp [String.toList_append, List.append_assoc]
  refine decode_of_free (x := (a ++ x ++ b).toList) (by rw [String.toList_append]) ?_
  rw [e]
  exact FreeOf.right hb (FreeOf.left ha (hx.free s))

theorem quote_not_in_text (t : TStep) : '"' ∉ t.text.toList := by cases t <;> decide
theorem colon_not_in_text (t : TStep) : ':' ∉ t.text.toList := by cases t <;> decide

/-- a description without variable parts -/
theorem decode_const {s : TStep} {a : String} {a' : List Char} (ea : a.toList = a')
    (ha : (allSteps.all fun t => decide (s.idx ≤ t.idx) || !contains (a' ++ s.chars) t.chars) = true) :
    decode (a ++ s.text) = some s := by
  subst ea
  refine decode_of_free (x := a.toList) (by rw [String.toList_append]) ?_
  intro t ht hi
  rw [List.all_eq_true] at ha
  have := ha t (mem_allSteps t)
  have h0 : decide (s.idx ≤ t.idx) = false := by simpa using ht
  rw [h0, Bool.false_or, ← text_chars, ← text_chars, ← String.toList_append, (contains_iff _ _).2 hi] at this
  cases this

/-- a description with a quoted name -/
theorem decode_quoted {s : TStep} {a x b : String} {a' b' : List Char} (ea : a.toList = a') (eb : b.toList = b')
    (ha : okLeft s a' = true) (hb : okRight s (b' ++ s.chars) = true)
    (hx : Clean x) : decode (a ++ quote x ++ b ++ s.text) = some s := by
  subst ea eb
  rw [← text_chars, ← String.toList_append] at hb
  have e : (a ++ quote x ++ b ++ s.text).toList =
      (a.toList ++ '"' :: x.toList) ++ '"' :: (b ++ s.text).toList := by
    simp [quote, String.toList_append, List.append_assoc]
  refine decode_of_free (x := (a ++ quote x ++ b).toList) (by rw [String.toList_append]) ?_
  rw [e]
  have hnil : FreeOf s [] := fun t _ h => text_ne_nil t (List.infix_nil.1 h)
  have ha' : FreeOf s a.toList := by simpa using FreeOf.left ha hnil
  have hb' : FreeOf s (b ++ s.text).toList := by simpa using FreeOf.right hb hnil
  exact FreeOf.sep quote_not_in_text (FreeOf.sep quote_not_in_text ha' (hx.free s)) hb'

theorem similar_old {e : Env} {new cur : MStatus} (h : cur.opTime < e.now - tolerance) : isSimilar e.now new cur = false := by
  unfold isSimilar
  rw [if_pos]
  rw [Bool.or_eq_true]
  exact .inr (by simpa using h)

/-- a status write of a step: either suppressed (then the stored status is recent) or made -/
theorem write_cases (e : Env) (v : Obj) (new : MStatus) :
    ((applyWrite e v (.status true new)).getD v = v ∧ e.now - tolerance ≤ v.st.opTime) ∨
    (applyWrite e v (.status true new)).getD v = { v with st := new } := by
  rw [applyWrite]
  cases hs : isSimilar e.now new v.st with
  | true =>
    left
    refine ⟨rfl, ?_⟩
    rcases Int.lt_or_le v.st.opTime (e.now - tolerance) with h | h
    · rw [similar_old h] at hs; cases hs
    · exact h
  | false => right; rfl

/-- steps left after a step's status write -/
theorem left_step {v : Obj} {new : MStatus} {s : TStep} (hf : v.finalizer = true) (hp : new.phase = .terminating)
    (hd : decode new.desc = some s) : left { v with st := new } = stepLeft v.node (some s) := by
  unfold left
  rw [if_neg (by simp [hf]), if_neg (by simp [hp])]
  rw [hd]

theorem decode_text (s : TStep) : decode s.text = some s := by
  have := decode_const (s := s) (a := "") (a' := []) rfl (by cases s <;> decide +kernel)
  rwa [String.empty_append] at this

theorem label_chars : ("Label " ++ quote "node" ++ " not present on machine ").toList =
    "Label ".toList ++ ("\"".toList ++ "node".toList ++ "\"".toList) ++ " not present on machine ".toList := by
  simp only [quote, String.toList_append]

/-- what one reconcile does -/
structure Progress (e : Env) (v v' : Obj) : Prop where
  term : v'.finalizer = false ∨ Terminating v'
  time : v'.st.opTime = v.st.opTime ∨ v'.st.opTime = e.now
  less : left v' < left v ∨ (v' = v ∧ e.now - tolerance ≤ v.st.opTime)

theorem progress_status {e : Env} {v : Obj} (ht : Terminating v) {new : MStatus} {s : TStep} (hp : new.phase = .terminating)
    (htime : new.opTime = e.now) (hd : decode new.desc = some s) (hl : stepLeft v.node (some s) < left v) :
    Progress e v ((applyWrite e v (.status true new)).getD v) := by
  rcases write_cases e v new with ⟨h1, h2⟩ | h
  · rw [h1]; exact ⟨.inr ht, .inl rfl, .inr ⟨rfl, h2⟩⟩
  · rw [h]
    exact ⟨.inr ⟨ht.fin, ht.del, ht.name, ht.node⟩, .inr htime, .inl (by rw [left_step ht.fin hp hd]; exact hl)⟩

theorem progress_restart {e : Env} {v : Obj} (ht : Terminating v) (hl : left v = 8) :
    Progress e v ((applyWrite e v (.status false (termStatus e v))).getD v) := by
  show Progress e v { v with st := termStatus e v }
  refine ⟨.inr ⟨ht.fin, ht.del, ht.name, ht.node⟩, .inr rfl, .inl ?_⟩
  rw [left_step ht.fin rfl (decode_text .getVM), hl]
  show (if v.node = "" then 7 else 6) < 8
  split <;> omega

theorem left_of_step {v : Obj} (hf : v.finalizer = true) (hp : v.st.phase = .terminating) {s : Option TStep}
    (hd : decode v.st.desc = s) : left v = stepLeft v.node s := by
  unfold left
  rw [if_neg (by simp [hf]), if_neg (by simp [hp]), hd]

theorem run_progress {e : Env} {v : Obj} (ht : Terminating v) (hc : Coop e) : Progress e v (run e v) := by
  unfold run
  rw [if_neg (by simp [hc.cls])]
  by_cases hp : v.st.phase = .terminating
  case neg =>
    have hl : labelOf e v = none := by unfold labelOf; rw [if_neg (by simp [hp])]
    rw [hl]
    dsimp only
    unfold run.afterFlow flow
    rw [if_neg (by simp [ht.fin]), if_pos hp]
    exact progress_restart ht (by unfold left; rw [if_neg (by simp [ht.fin]), if_pos hp])
  case pos =>
    have hleft := fun s => left_of_step ht.fin hp (s := s)
    have hflow : ∀ s, decode v.st.desc = s → flow e v = match s with
        | some .getVM => getVMStep e v
        | some .drain => drainStep e v
        | some .vols => volStep e v
        | some .vm => vmStep e v
        | some .node => nodeStep e v
        | some .fin => finStep
        | none => setTerminating e v := by
      intro s hs
      unfold flow
      rw [if_neg (by simp [ht.fin]), if_neg (by simp [hp]), hs]
      rcases s with _ | s
      · rfl
      · cases s <;> rfl
    have hlabel : ∀ s, decode v.st.desc = s → s ≠ some .getVM → labelOf e v = none := by
      intro s hs hne; unfold labelOf; rw [if_neg (by rw [hs]; simp [hne])]
    cases hd : decode v.st.desc with
    | none =>
      rw [hlabel _ hd (by simp)]
      dsimp only
      unfold run.afterFlow
      rw [hflow _ hd]
      exact progress_restart ht (by rw [hleft _ hd]; rfl)
    | some s =>
      have hl := hleft _ hd
      have hfl := hflow _ hd
      cases s with
      | getVM =>
        have hlab : labelOf e v = labelWrite e v := by
          unfold labelOf; rw [if_pos (by rw [hd, hp, ht.fin]; decide)]
        dsimp only at hfl
        by_cases hn : v.node = ""
        · have hl7 : left v = 7 := by rw [hl]; unfold stepLeft; rw [if_pos hn]
          cases hnn : nodeName e with
          | ok n =>
            have : labelWrite e v = some n := by unfold labelWrite; rw [if_neg (by simp [hn]), hnn]
            rw [hlab, this]
            dsimp only
            split
            · rename_i hne
              refine ⟨.inr ⟨ht.fin, ht.del, ht.name, hc.name n hnn⟩, .inl rfl, .inl ?_⟩
              have : left { v with node := n } = stepLeft n (some .getVM) := left_of_step (v := { v with node := n }) ht.fin hp hd
              rw [this, hl7]
              show (if n = "" then 7 else 6) < 7
              rw [if_neg (by rw [hn] at hne; exact hne)]
              omega
            · unfold run.afterFlow
              rw [hfl]
              unfold getVMStep
              rw [if_neg (by simp [hn]), hnn]
              exact progress_status ht hp rfl (decode_text .drain) (by rw [hl7]; simp [stepLeft])
          | error text =>
            have : labelWrite e v = none := by unfold labelWrite; rw [if_neg (by simp [hn]), hnn]
            rw [hlab, this]
            dsimp only
            unfold run.afterFlow
            rw [hfl]
            unfold getVMStep
            rw [if_neg (by simp [hn]), hnn]
            dsimp only
            obtain ⟨c, m, h1, h2⟩ := hc.status text hnn
            refine progress_status (s := .drain) ht hp rfl ?_ (by rw [hl7]; simp [stepLeft])
            show decode (getVMError text).1 = some .drain
            unfold getVMError
            rw [h1]
            rcases h2 with rfl | rfl | rfl
            · exact decode_text .drain
            · show decode ("VM was not found at provider. Moving forward to node drain. " ++ TStep.drain.text) = _
              exact decode_const lit (by decide +kernel)
            · show decode ("VM instance was not initialized. Moving forward to node drain. " ++ TStep.drain.text) = _
              exact decode_const lit (by decide +kernel)
        · have hl6 : left v = 6 := by rw [hl]; unfold stepLeft; rw [if_neg hn]
          have : labelWrite e v = none := by unfold labelWrite; rw [if_pos (by simpa using hn)]
          rw [hlab, this]
          dsimp only
          unfold run.afterFlow
          rw [hfl]
          unfold getVMStep
          rw [if_pos (by simpa using hn)]
          exact progress_status ht hp rfl (decode_text .drain) (by rw [hl6]; simp [stepLeft])
      | drain =>
        have hl5 : left v = 5 := hl
        rw [hlabel _ hd (by simp)]
        dsimp only at hfl ⊢
        unfold run.afterFlow
        rw [hfl]
        unfold drainStep
        by_cases hn : v.node = ""
        · rw [if_pos hn]
          refine progress_status (s := .vm) ht hp rfl ?_ (by rw [hl5]; simp [stepLeft])
          show decode ("Skipping drain as nodeName is not a valid one for machine. " ++ TStep.vm.text) = _
          exact decode_const lit (by decide +kernel)
        · rw [if_neg hn]
          cases hts : v.deleting with
          | none => exact absurd hts ht.del
          | some ts =>
            dsimp only
            rw [hc.cond]
            dsimp only
            rw [hc.drain]
            cases forced e v ts with
            | true =>
              refine progress_status (s := .vols) ht hp rfl ?_ (by rw [hl5]; simp [stepLeft])
              show decode ("Force Drain successful. " ++ TStep.vols.text) = _
              exact decode_const lit (by decide +kernel)
            | false =>
              refine progress_status (s := .vm) ht hp rfl ?_ (by rw [hl5]; simp [stepLeft])
              show decode ("Drain successful. " ++ TStep.vm.text) = _
              exact decode_const lit (by decide +kernel)
      | vols =>
        have hl4 : left v = 4 := hl
        rw [hlabel _ hd (by simp)]
        dsimp only at hfl ⊢
        unfold run.afterFlow
        rw [hfl]
        unfold volStep
        have hlt : stepLeft v.node (some .vm) < left v := by rw [hl4]; simp [stepLeft]
        cases hg : e.nodeGet with
        | fail => exact absurd hg hc.nodeGet
        | notFound text =>
          exact progress_status (s := .vm) ht hp rfl (decode_frame lit lit (by decide +kernel) (by decide +kernel) (hc.nodeText text hg)) hlt
        | found b =>
          cases b with
          | false =>
            exact progress_status (s := .vm) ht hp rfl (decode_frame lit lit (by decide +kernel) (by decide +kernel) ht.node.clean) hlt
          | true =>
            dsimp only
            rw [hc.vols]
            exact progress_status (s := .vm) ht hp rfl (decode_frame lit lit (by decide +kernel) (by decide +kernel) ht.node.clean) hlt
      | vm =>
        have hl3 : left v = 3 := hl
        rw [hlabel _ hd (by simp)]
        dsimp only at hfl ⊢
        unfold run.afterFlow
        rw [hfl]
        unfold vmStep
        refine progress_status (s := .node) ht hp rfl ?_ (by rw [hl3]; simp [stepLeft])
        show decode (deleteVMResult e.delVM.err).1 = _
        rcases hc.delVM with h | ⟨text, m, h, hf⟩
        · rw [h]
          show decode ("VM deletion was successful. " ++ TStep.node.text) = _
          exact decode_const lit (by decide +kernel)
        · rw [h]; unfold deleteVMResult; dsimp only; rw [hf]
          show decode ("VM not found. Continuing deletion flow. " ++ TStep.node.text) = _
          exact decode_const lit (by decide +kernel)
      | node =>
        have hl2 : left v = 2 := hl
        rw [hlabel _ hd (by simp)]
        dsimp only at hfl ⊢
        unfold run.afterFlow
        rw [hfl]
        unfold nodeStep
        have hlt : stepLeft v.node (some .fin) < left v := by rw [hl2]; simp [stepLeft]
        by_cases hn : v.node ≠ ""
        · rw [if_pos hn]
          refine progress_status (s := .fin) ht hp rfl ?_ hlt
          show decode (deleteNodeResult v.node e.delNode).1 = _
          cases hdn : e.delNode with
          | ok => exact decode_quoted lit lit (by decide +kernel) (by decide +kernel) ht.node.clean
          | notFound t => exact decode_quoted lit lit (by decide +kernel) (by decide +kernel) ht.node.clean
          | fail t => exact absurd hdn (hc.delNode t)
        · rw [if_neg hn]
          refine progress_status (s := .fin) ht hp rfl ?_ hlt
          exact decode_quoted label_chars lit (by decide +kernel) (by decide +kernel)
            ht.name.clean
      | fin =>
        have hl1 : left v = 1 := hl
        rw [hlabel _ hd (by simp)]
        dsimp only at hfl ⊢
        unfold run.afterFlow
        rw [hfl]
        show Progress e v { v with finalizer := false }
        exact ⟨.inl rfl, .inl rfl, .inl (by rw [hl1]; simp [left])⟩

/-! ### Theorems -/

/-- C24: a reconcile in a cooperating environment, from whatever status the machine has, brings the termination one step further,
unless its status write is held back because the stored status is similar and at most 30 minutes old. -/
theorem C24_progress (e : Env) (v : Obj) (ht : Terminating v) (hc : Coop e) :
    left (run e v) < left v ∨ (run e v = v ∧ e.now ≤ v.st.opTime + tolerance) := by
  rcases (run_progress ht hc).less with h | ⟨h1, h2⟩
  · exact .inl h
  · exact .inr ⟨h1, by omega⟩

theorem runs_done : ∀ (es : List Env) (v : Obj), v.finalizer = false → (∀ e ∈ es, Coop e) → (runs es v).finalizer = false := by
  intro es
  induction es with
  | nil => intro v h _; exact h
  | cons e es ih =>
    intro v h hc
    refine ih (run e v) ?_ (fun x hx => hc x (by simp [hx]))
    unfold run
    rw [if_neg (by simp [(hc e (by simp)).cls])]
    have hl : labelOf e v = none := by unfold labelOf; rw [if_neg (by simp [h])]
    rw [hl]
    dsimp only
    unfold run.afterFlow flow
    rw [if_pos (by simp [h])]
    exact h

theorem runs_left : ∀ (es : List Env) (v : Obj), Terminating v → (∀ e ∈ es, Coop e) → Paced v.st.opTime es →
    left v ≤ es.length → (runs es v).finalizer = false := by
  intro es
  induction es with
  | nil =>
    intro v ht _ _ hl
    exfalso
    have : 0 < left v := by
      unfold left
      rw [if_neg (by simp [ht.fin])]
      split
      · omega
      · unfold stepLeft
        repeat' split
        all_goals omega
    simp at hl
    omega
  | cons e es ih =>
    intro v ht hc hp hl
    have hr := run_progress ht (hc e (by simp))
    obtain ⟨hp1, hp2⟩ := hp
    show (runs es (run e v)).finalizer = false
    have hless : left (run e v) < left v := by
      rcases hr.less with h | ⟨_, h⟩
      · exact h
      · omega
    rcases hr.term with h | h
    · exact runs_done es _ h (fun x hx => hc x (by simp [hx]))
    · refine ih (run e v) h (fun x hx => hc x (by simp [hx])) ?_ (by simp at hl; omega)
      cases es with
      | nil => trivial
      | cons e2 es =>
        refine ⟨?_, hp2.2⟩
        have := hp2.1
        have h3 : tolerance > 0 := by decide
        rcases hr.time with h | h <;> rw [h] <;> omega

/-- C24: From every status of a machine being deleted (any phase, any description), eight reconciles in a cooperating
environment remove the finalizer, if they are more than 30 minutes apart (so that no status write is held back). -/
theorem C24_completes (es : List Env) (v : Obj) (ht : Terminating v) (hc : ∀ e ∈ es, Coop e) (hp : Paced v.st.opTime es)
    (hl : 8 ≤ es.length) : (runs es v).finalizer = false := by
  refine runs_left es v ht hc hp (Nat.le_trans ?_ hl)
  unfold left
  repeat' split
  · omega
  · omega
  · unfold stepLeft
    repeat' split
    all_goals omega

/-- the texts returned by the outside world contain no step's text -/
structure CleanEnv (e : Env) : Prop where
  name : ∀ n, nodeName e = .ok n → NameLike n
  cond : ∀ t, e.condErr = some t → Clean t
  drain : ∀ t, e.drainErr = some t → Clean t
  nodeGet : ∀ t, e.nodeGet = .notFound t → Clean t
  delVM : ∀ t, e.delVM.err = some t → Clean t
  delNode : ∀ t, e.delNode = .fail t → Clean t

theorem le_status {e : Env} {v : Obj} (hf : v.finalizer = true) {new : MStatus} {s : TStep} (hp : new.phase = .terminating)
    (hd : decode new.desc = some s) (hl : stepLeft v.node (some s) ≤ left v) :
    left ((applyWrite e v (.status true new)).getD v) ≤ left v := by
  rcases write_cases e v new with ⟨h1, _⟩ | h
  · rw [h1]; exact Nat.le_refl _
  · rw [h, left_step hf hp hd]; exact hl

theorem decode_getVM (a : String) : decode (a ++ TStep.getVM.text) = some .getVM :=
  (C23_decode _ _).2 ⟨⟨a.toList, [], by simp⟩, fun t ht => by simp [TStep.idx] at ht⟩

theorem decode_nodeFail {node t : String} (hn : Clean node) (ht : Clean t) :
    decode ("Deletion of Node Object " ++ quote node ++ " failed due to error: " ++ t ++ ". " ++ TStep.node.text) = some .node := by
  have e1 : ("Deletion of Node Object " ++ quote node ++ " failed due to error: " ++ t ++ ". " ++ TStep.node.text).toList =
      ("Deletion of Node Object ".toList ++ '"' :: node.toList) ++ '"' :: (" failed due to error".toList ++
        ':' :: ((" ".toList ++ t.toList) ++ (". " ++ TStep.node.text).toList)) := by
    simp only [quote, String.toList_append, List.append_assoc]
    rfl
  refine decode_of_free (x := ("Deletion of Node Object " ++ quote node ++ " failed due to error: " ++ t ++ ". ").toList)
    (by rw [String.toList_append]) ?_
  rw [e1]
  have hnil : FreeOf .node [] := fun t _ h => text_ne_nil t (List.infix_nil.1 h)
  have a1 : FreeOf .node "Deletion of Node Object ".toList := by
    have := FreeOf.left (s := .node) (a := "Deletion of Node Object ".toList) (by decide +kernel) hnil
    rwa [List.append_nil] at this
  have a2 : FreeOf .node " failed due to error".toList := by
    have := FreeOf.left (s := .node) (a := " failed due to error".toList) (by decide +kernel) hnil
    rwa [List.append_nil] at this
  exact FreeOf.sep quote_not_in_text (FreeOf.sep quote_not_in_text a1 (hn.free _))
    (FreeOf.sep colon_not_in_text a2 (FreeOf.right (by decide +kernel) (FreeOf.left (by decide +kernel) (ht.free _))))

/-- the step recorded by a reconcile's status write -/
theorem flow_decode {e : Env} {v : Obj} (ht : Terminating v) (hc : CleanEnv e) (hp : v.st.phase = .terminating) {s : TStep}
    (hd : decode v.st.desc = some s) {new : MStatus} {b : Bool} (hw : (flow e v).write = some (.status b new)) :
    b = true ∧ new.phase = .terminating ∧ ∃ s', decode new.desc = some s' ∧ s.idx ≤ s'.idx := by
  unfold flow at hw
  rw [if_neg (by simp [ht.fin]), if_neg (by simp [hp]), hd] at hw
  cases s with
  | getVM =>
    dsimp only at hw
    unfold getVMStep at hw
    split at hw
    · simp only [Option.some.injEq, Write.status.injEq] at hw; obtain ⟨rfl, rfl⟩ := hw
      exact ⟨rfl, hp, .drain, decode_text .drain, by decide⟩
    · split at hw
      · simp only [Option.some.injEq, Write.status.injEq] at hw; obtain ⟨rfl, rfl⟩ := hw
        exact ⟨rfl, hp, .drain, decode_text .drain, by decide⟩
      · rename_i text _
        simp only [Option.some.injEq, Write.status.injEq] at hw; obtain ⟨rfl, rfl⟩ := hw
        refine ⟨rfl, hp, ?_⟩
        have : decode (getVMError text).1 = some .getVM ∨ decode (getVMError text).1 = some .drain := by
          unfold getVMError
          cases fromError text with
          | none => exact .inl (decode_getVM _)
          | some p =>
            dsimp only
            split
            · exact .inr (decode_text .drain)
            · right
              show decode ("VM was not found at provider. Moving forward to node drain. " ++ TStep.drain.text) = _
              exact decode_const lit (by decide +kernel)
            · exact .inl (decode_getVM _)
            · exact .inl (decode_getVM _)
            · exact .inl (decode_getVM _)
            · exact .inl (decode_getVM _)
            · right
              show decode ("VM instance was not initialized. Moving forward to node drain. " ++ TStep.drain.text) = _
              exact decode_const lit (by decide +kernel)
            · exact .inl (decode_getVM _)
        rcases this with h | h
        · exact ⟨_, h, by decide⟩
        · exact ⟨_, h, by decide⟩
  | drain =>
    dsimp only at hw
    unfold drainStep at hw
    split at hw
    · simp only [Option.some.injEq, Write.status.injEq] at hw; obtain ⟨rfl, rfl⟩ := hw
      refine ⟨rfl, hp, .vm, ?_, by decide⟩
      show decode ("Skipping drain as nodeName is not a valid one for machine. " ++ TStep.vm.text) = _
      exact decode_const lit (by decide +kernel)
    · split at hw
      · cases hw
      · rename_i ts _
        split at hw
        · rename_i err hce _
          simp only [Option.some.injEq, Write.status.injEq] at hw; obtain ⟨rfl, rfl⟩ := hw
          exact ⟨rfl, hp, .drain, decode_frame lit lit (by decide +kernel) (by decide +kernel) (hc.cond _ hce), by decide⟩
        · simp only [Option.some.injEq, Write.status.injEq] at hw; obtain ⟨rfl, rfl⟩ := hw
          refine ⟨rfl, hp, ?_⟩
          show ∃ s', decode (drainResult (forced e v ts) e.drainErr).1 = some s' ∧ _
          cases hde : e.drainErr with
          | none =>
            cases forced e v ts with
            | true => exact ⟨.vols, by show decode ("Force Drain successful. " ++ TStep.vols.text) = _; exact decode_const lit (by decide +kernel), by decide⟩
            | false => exact ⟨.vm, by show decode ("Drain successful. " ++ TStep.vm.text) = _; exact decode_const lit (by decide +kernel), by decide⟩
          | some err =>
            cases forced e v ts with
            | true => exact ⟨.vols, decode_frame lit lit (by decide +kernel) (by decide +kernel) (hc.drain _ hde), by decide⟩
            | false => exact ⟨.drain, decode_frame lit lit (by decide +kernel) (by decide +kernel) (hc.drain _ hde), by decide⟩
  | vols =>
    dsimp only at hw
    unfold volStep at hw
    split at hw
    · cases hw
    · rename_i text hg
      simp only [Option.some.injEq, Write.status.injEq] at hw; obtain ⟨rfl, rfl⟩ := hw
      exact ⟨rfl, hp, .vm, decode_frame lit lit (by decide +kernel) (by decide +kernel) (hc.nodeGet text hg), by decide⟩
    · simp only [Option.some.injEq, Write.status.injEq] at hw; obtain ⟨rfl, rfl⟩ := hw
      exact ⟨rfl, hp, .vm, decode_frame lit lit (by decide +kernel) (by decide +kernel) ht.node.clean, by decide⟩
    · split at hw
      · cases hw
      · cases hw
      · simp only [Option.some.injEq, Write.status.injEq] at hw; obtain ⟨rfl, rfl⟩ := hw
        exact ⟨rfl, hp, .vm, decode_frame lit lit (by decide +kernel) (by decide +kernel) ht.node.clean, by decide⟩
  | vm =>
    dsimp only at hw
    unfold vmStep at hw
    simp only [Option.some.injEq, Write.status.injEq] at hw; obtain ⟨rfl, rfl⟩ := hw
    refine ⟨rfl, hp, ?_⟩
    show ∃ s', decode (deleteVMResult e.delVM.err).1 = some s' ∧ _
    have : decode (deleteVMResult e.delVM.err).1 = some .vm ∨ decode (deleteVMResult e.delVM.err).1 = some .node := by
      cases herr : e.delVM.err with
      | none =>
        right
        show decode ("VM deletion was successful. " ++ TStep.node.text) = _
        exact decode_const lit (by decide +kernel)
      | some err =>
        have hcl := hc.delVM err herr
        unfold deleteVMResult
        dsimp only
        cases fromError err with
        | none => exact .inl (decode_frame lit lit (by decide +kernel) (by decide +kernel) hcl)
        | some p =>
          dsimp only
          split
          case h_5 =>
            right
            show decode ("VM not found. Continuing deletion flow. " ++ TStep.node.text) = _
            exact decode_const lit (by decide +kernel)
          all_goals exact .inl (decode_frame lit lit (by decide +kernel) (by decide +kernel) hcl)
    rcases this with h | h
    · exact ⟨_, h, by decide⟩
    · exact ⟨_, h, by decide⟩
  | node =>
    dsimp only at hw
    unfold nodeStep at hw
    split at hw
    · simp only [Option.some.injEq, Write.status.injEq] at hw; obtain ⟨rfl, rfl⟩ := hw
      refine ⟨rfl, hp, ?_⟩
      show ∃ s', decode (deleteNodeResult v.node e.delNode).1 = some s' ∧ _
      cases hdn : e.delNode with
      | ok => exact ⟨.fin, decode_quoted lit lit (by decide +kernel) (by decide +kernel) ht.node.clean, by decide⟩
      | notFound t => exact ⟨.fin, decode_quoted lit lit (by decide +kernel) (by decide +kernel) ht.node.clean, by decide⟩
      | fail t => exact ⟨.node, decode_nodeFail ht.node.clean (hc.delNode t hdn), by decide⟩
    · simp only [Option.some.injEq, Write.status.injEq] at hw; obtain ⟨rfl, rfl⟩ := hw
      exact ⟨rfl, hp, .fin, decode_quoted label_chars lit (by decide +kernel)
        (by decide +kernel) ht.name.clean, by decide⟩
  | fin => cases hw

theorem stepLeft_mono (n : String) {s s' : TStep} (h : s.idx ≤ s'.idx) : stepLeft n (some s') ≤ stepLeft n (some s) := by
  cases s <;> cases s' <;> simp only [TStep.idx] at h <;> simp only [stepLeft] <;> (try split) <;> omega

/-- C24: no reconcile loses progress – whatever the outcome of its calls, as long as the error texts do not contain the text of a
step. -/
theorem C24_no_regress_partial (e : Env) (v : Obj) (ht : Terminating v) (hc : CleanEnv e) : left (run e v) ≤ left v := by
  unfold run
  split
  · exact Nat.le_refl _
  have top : left v ≤ 8 := by
    unfold left
    split
    · omega
    · split
      · omega
      · unfold stepLeft; repeat' split
        all_goals omega
  have haf : left (run.afterFlow e v) ≤ left v := by
    unfold run.afterFlow
    cases hw : (flow e v).write with
    | none => exact Nat.le_refl _
    | some wr =>
      dsimp only
      cases wr with
      | dropFinalizer => show left { v with finalizer := false } ≤ _; simp [left]
      | status b new =>
        by_cases hs : v.st.phase = .terminating ∧ ∃ s, decode v.st.desc = some s
        · obtain ⟨hp, s, hd⟩ := hs
          obtain ⟨rfl, hnp, s', hnd, hle⟩ := flow_decode ht hc hp hd hw
          refine le_status ht.fin hnp hnd ?_
          rw [left_of_step ht.fin hp hd]
          exact stepLeft_mono _ hle
        · have h8 : left v = 8 := by
            unfold left
            rw [if_neg (by simp [ht.fin])]
            split
            · rfl
            · rename_i hp
              cases hd : decode v.st.desc with
              | none => rfl
              | some s => exact absurd ⟨by simpa using hp, s, hd⟩ hs
          rw [h8]
          have gen : ∀ o : Obj, left o ≤ 8 := by
            intro o
            unfold left
            split
            · omega
            · split
              · omega
              · unfold stepLeft; repeat' split
                all_goals omega
          exact gen _
  cases hlw : labelOf e v with
  | none => exact haf
  | some n =>
    dsimp only
    split
    · unfold labelOf at hlw
      split at hlw
      · rename_i hcond
        simp only [Bool.and_eq_true, beq_iff_eq] at hcond
        obtain ⟨⟨_, hp⟩, hd⟩ := hcond
        have h1 : left { v with node := n } = stepLeft n (some .getVM) := left_of_step (v := { v with node := n }) ht.fin hp hd
        rw [h1, left_of_step ht.fin hp hd]
        unfold labelWrite at hlw
        split at hlw
        · cases hlw
        · rename_i hn
          have hn : v.node = "" := by simpa using hn
          show (if n = "" then 7 else 6) ≤ (if v.node = "" then 7 else 6)
          rw [if_pos hn]
          split <;> omega
      · cases hlw
    · exact haf

theorem chars8 (a b c d m x y t : String) : (a ++ (b ++ c ++ d ++ m ++ x) ++ y ++ t).toList =
    ((a.toList ++ (b.toList ++ (c.toList ++ d.toList))) ++ m.toList) ++ (x.toList ++ (y.toList ++ t.toList)) := by
  simp only [String.toList_append, List.append_assoc]

/-- C24 fails for error texts that contain a step's text: a provider error quoting the machine's status sends the termination from
the VM deletion back to the drain. -/
theorem C24_error_text_regresses_false :
    let v : Obj := { deleting := some 0, st := { phase := .terminating, desc := TStep.vm.text } }
    let e : Env := { now := 2 * tolerance, delVM := { err := some (render .internal TStep.drain.text) } }
    left v = 3 ∧ left (run e v) = 5 := by
  intro v e
  have hlv : left v = 3 := left_of_step (v := v) rfl rfl (decode_text .vm)
  refine ⟨hlv, ?_⟩
  have hbal : Balanced TStep.drain.text.toList := by
    rw [text_chars]
    refine ⟨fun p hp => ?_, by decide⟩
    rw [List.count_eq_zero.2 (fun h => absurd (hp.subset h) (by decide))]
    exact Nat.zero_le _
  have hf : fromError (render .internal TStep.drain.text) = some (.internal, TStep.drain.text) :=
    (C32_round_trip_iff .internal trivial _).2 hbal
  have hres : (deleteVMResult (some (render .internal TStep.drain.text))).1 =
      "VM deletion failed due to - " ++ render .internal TStep.drain.text ++ ". Aborting operation. " ++ TStep.vm.text := by
    unfold deleteVMResult; dsimp only; rw [hf]
  have hchars : (deleteVMResult (some (render .internal TStep.drain.text))).1.toList =
      (("VM deletion failed due to - ".toList ++ ("machine codes error: code = [".toList ++ ("Internal".toList ++
        "] message = [".toList))) ++ TStep.drain.text.toList) ++ ("]".toList ++ (". Aborting operation. ".toList ++ TStep.vm.chars)) := by
    rw [hres, ← text_chars .vm]
    exact chars8 _ _ _ _ _ _ _ _
  have hdec : decode (deleteVMResult (some (render .internal TStep.drain.text))).1 = some .drain := by
    refine (C23_decode _ _).2 ⟨?_, fun t ht => ?_⟩
    · rw [hchars]; exact ⟨_, _, rfl⟩
    · rw [hchars]
      refine FreeOf.right (s := .drain) ?_ (FreeOf.left ?_ ?_) t ht
      · rw [show "]".toList = _ from lit, show ". Aborting operation. ".toList = _ from lit]; decide +kernel
      · rw [show "VM deletion failed due to - ".toList = _ from lit, show "machine codes error: code = [".toList = _ from lit,
          show "Internal".toList = _ from lit, show "] message = [".toList = _ from lit]; decide +kernel
      · intro t ht
        rw [text_chars, text_chars, ← contains_iff]
        revert ht; cases t <;> decide +kernel
  have hrun : run e v = { v with st := { stepStatus e v (deleteVMResult e.delVM.err).1 (deleteVMResult e.delVM.err).2.1 with
      lastKnownState := e.delVM.lks } } := by
    have hl : labelOf e v = none := by unfold labelOf; rw [show decode v.st.desc = some .vm from decode_text .vm]; rfl
    unfold run
    rw [if_neg (by decide), hl]
    dsimp only
    unfold run.afterFlow flow
    rw [if_neg (by decide), if_neg (by decide), show decode v.st.desc = some .vm from decode_text .vm]
    dsimp only
    unfold vmStep
    dsimp only
    rw [applyWrite]
    have : isSimilar e.now { stepStatus e v (deleteVMResult e.delVM.err).1 (deleteVMResult e.delVM.err).2.1 with
      lastKnownState := e.delVM.lks } v.st = false := similar_old (by decide)
    rw [this]
    rfl
  have he : e.delVM.err = some (render .internal TStep.drain.text) := rfl
  rw [← he] at hdec
  rw [hrun]
  generalize deleteVMResult e.delVM.err = d at hdec
  exact left_step (v := v) (s := .drain) rfl rfl hdec

/-- a termination from an arbitrary status, with a node: eight reconciles, 31 minutes apart -/
def demoEnv (k : Nat) : Env := { now := (k + 1) * 31 * 60 * 1000000000, nodeByLabel := some "node-1" }
example : Coop (demoEnv 0) where
  cls := rfl
  name := by intro n hn; cases hn; unfold NameLike; decide
  status := by intro t h; cases h
  cond := rfl
  drain := rfl
  nodeGet := by decide
  nodeText := by intro t h; cases h
  vols := rfl
  delVM := .inl rfl
  delNode := by intro t h; cases h
example : Terminating { deleting := some 0, st := { phase := .failed, desc := "Machine m is unhealthy" } } :=
  ⟨rfl, by decide, by unfold NameLike; decide, by unfold NameLike; decide⟩
example : Paced 0 ((List.range 8).map demoEnv) := by
  refine ⟨by decide, by decide, by decide, by decide, by decide, by decide, by decide, by decide, trivial⟩
/-- the hypotheses of `C24_completes` hold together: this termination completes -/
example : (runs ((List.range 8).map demoEnv)
      { deleting := some 0, forceLabel := true, st := { phase := .failed, desc := "Machine m is unhealthy" } }).finalizer = false := by
  refine C24_completes _ _ ⟨rfl, by decide, by unfold NameLike; decide, by unfold NameLike; decide⟩ ?_ ?_ (by simp)
  · intro e he
    obtain ⟨k, _, rfl⟩ := List.mem_map.1 he
    exact ⟨rfl, (by intro n hn; cases hn; unfold NameLike; decide), (by intro t h; cases h), rfl, rfl, (by intro h; cases h),
      (by intro t h; cases h), rfl, .inl rfl, (by intro t h; cases h)⟩
  · refine ⟨by decide, by decide, by decide, by decide, by decide, by decide, by decide, by decide, trivial⟩

/-! ### Undisturbed reconciles are among the interleavings -/

theorem Reach.trans {a b c : World} (h1 : Reach a b) (h2 : Reach b c) : Reach a c := by
  induction h2 with
  | refl => exact h1
  | step _ hs ih => exact .step ih hs

theorem act_reach (e : Env) (w : World) (b : Nat) (v : Obj) (hb : w.hist[b]? = some v) (hl : w.latest b)
    (hs : ∀ w' : World, w' = w.act e b v → Step w w') :
    ∃ w' b', Reach w w' ∧ w'.hist[b']? = some (run.afterFlow e v) ∧ w'.latest b' ∧ (∀ x ∈ w.trace, x ∈ w'.trace) ∧
      (v.finalizer = true → (run.afterFlow e v).finalizer = false → .finalizerRemoved ∈ w'.trace) := by
  have h1 : Reach w (w.act e b v) := .step .refl (hs _ rfl)
  have hmem : ∀ x ∈ w.trace, x ∈ (w.act e b v).trace := fun x hx => List.mem_append_left _ hx
  have stay : run.afterFlow e v = v → ∃ w' b', Reach w w' ∧ w'.hist[b']? = some (run.afterFlow e v) ∧ w'.latest b' ∧
      (∀ x ∈ w.trace, x ∈ w'.trace) ∧
      (v.finalizer = true → (run.afterFlow e v).finalizer = false → .finalizerRemoved ∈ w'.trace) := by
    intro h
    refine ⟨_, b, h1, ?_, hl, hmem, ?_⟩
    · rw [h]; exact hb
    · intro hv hr; rw [h, hv] at hr; cases hr
  cases hw : (flow e v).write with
  | none => exact stay (by unfold run.afterFlow; rw [hw])
  | some wr =>
    cases ha : applyWrite e v wr with
    | none => exact stay (by unfold run.afterFlow; rw [hw]; dsimp only; rw [ha]; rfl)
    | some o =>
      have ho : run.afterFlow e v = o := by unfold run.afterFlow; rw [hw]; dsimp only; rw [ha]; rfl
      have hp : (b, o, wr == .dropFinalizer) ∈ (w.act e b v).pending := by
        unfold World.act; dsimp only; rw [hw]; dsimp only; rw [ha]; exact List.mem_cons_self
      refine ⟨_, w.hist.length, .step h1 (.land b o _ hp hl), ?_, ?_, ?_, ?_⟩
      · rw [ho]
        show (w.hist ++ [o])[w.hist.length]? = some o
        simp
      · show w.hist.length + 1 = (w.hist ++ [o]).length
        simp
      · intro x hx
        dsimp only
        split
        · exact List.mem_append_left _ (hmem x hx)
        · exact hmem x hx
      · intro hv hr
        rw [ho] at hr
        cases wr with
        | dropFinalizer => exact List.mem_append_right _ (List.mem_singleton.2 rfl)
        | status c new =>
          exfalso
          cases c with
          | false => rw [applyWrite] at ha; injection ha with ha; rw [← ha] at hr; rw [hv] at hr; cases hr
          | true =>
            rw [applyWrite] at ha
            split at ha
            · cases ha
            · injection ha with ha; rw [← ha] at hr; rw [hv] at hr; cases hr

theorem run_reach (e : Env) (w : World) (b : Nat) (v : Obj) (hb : w.hist[b]? = some v) (hl : w.latest b) :
    ∃ w' b', Reach w w' ∧ w'.hist[b']? = some (run e v) ∧ w'.latest b' ∧ (∀ x ∈ w.trace, x ∈ w'.trace) ∧
      (v.finalizer = true → (run e v).finalizer = false → .finalizerRemoved ∈ w'.trace) := by
  unfold run
  split
  · exact ⟨w, b, .refl, hb, hl, fun _ h => h, fun hv hr => by rw [hv] at hr; cases hr⟩
  · cases hlab : labelOf e v with
    | none =>
      dsimp only
      exact act_reach e w b v hb hl (fun w' h => h ▸ .act e b v hb hlab)
    | some n =>
      dsimp only
      split
      · rename_i hn
        refine ⟨_, w.hist.length, .step .refl (.label e b v n hb hlab hl hn), ?_, ?_, fun _ h => h, ?_⟩
        · show (w.hist ++ [_])[w.hist.length]? = some _
          simp
        · show w.hist.length + 1 = (w.hist ++ [_]).length
          simp
        · intro hv hr; rw [hv] at hr; cases hr
      · exact act_reach e w b v hb hl (fun w' h => h ▸ .afterLabel e b v n hb hlab)

/-- A sequence of undisturbed reconciles is one of the interleavings, and if it ends without the finalizer, its removal is in the
trace. -/
theorem runs_reach (es : List Env) (w : World) (b : Nat) (v : Obj) (hb : w.hist[b]? = some v) (hl : w.latest b) :
    ∃ w' b', Reach w w' ∧ w'.hist[b']? = some (runs es v) ∧ w'.latest b' ∧ (∀ x ∈ w.trace, x ∈ w'.trace) ∧
      (v.finalizer = true → (runs es v).finalizer = false → .finalizerRemoved ∈ w'.trace) := by
  induction es generalizing w b v with
  | nil => exact ⟨w, b, .refl, hb, hl, fun _ h => h, fun hv hr => by rw [show runs [] v = v from rfl, hv] at hr; cases hr⟩
  | cons e es ih =>
    obtain ⟨w1, b1, r1, h1, l1, m1, f1⟩ := run_reach e w b v hb hl
    obtain ⟨w2, b2, r2, h2, l2, m2, f2⟩ := ih w1 b1 _ h1 l1
    refine ⟨w2, b2, r1.trans r2, h2, l2, fun x hx => m2 x (m1 x hx), fun hv hr => ?_⟩
    cases hf : (run e v).finalizer with
    | true => exact f2 hf hr
    | false => exact m2 _ (f1 hv hf)

/-- C22 and C24 together: a cooperative, paced termination removes the finalizer, and in that very execution the VM was confirmed
gone and then the node. -/
theorem C24_completes_safely (es : List Env) (v : Obj) (ht : Terminating v) (hc : ∀ e ∈ es, Coop e) (hp : Paced v.st.opTime es)
    (hl : 8 ≤ es.length) (hs : reached v < 2) :
    ∃ w b, Reach { hist := [v] } w ∧ w.hist[b]? = some (runs es v) ∧ w.latest b ∧ (runs es v).finalizer = false ∧
      ∃ x ∈ w.trace, ∃ y ∈ w.trace, VMGone x ∧ NodeGone y := by
  obtain ⟨w, b, r, h1, h2, _, hf⟩ := runs_reach es { hist := [v] } 0 v rfl rfl
  have hfin := C24_completes es v ht hc hp hl
  refine ⟨w, b, r, h1, h2, hfin, ?_⟩
  obtain ⟨pre, post, htr⟩ := List.append_of_mem (hf ht.fin hfin)
  obtain ⟨a, x, c, y, d, hpre, hx, hy⟩ := C22_finalizer_outlives_vm { hist := [v] } w
    ⟨rfl, rfl, by intro o ho; rw [List.mem_singleton.1 ho]; exact hs⟩ r pre post htr
  refine ⟨x, ?_, y, ?_, hx, hy⟩ <;> rw [htr, hpre] <;> simp

end MCM.Termination
