import Verif.Lemmas.Answers
import Verif.Spec.Calls
/-!
# Single messages

`Thread W id msg bl ev st`: message `id` made the blocks `bl` and recorded the events `ev`, step by step in worlds before `W`, and
is now in status `st`. Every message of a reachable world is such a thread (`thread`), so properties of a message can be
proved by induction over its own steps.
-/

namespace EvmMinter
open Spec

section
variable [Keccak]

/-- The change of the minter in one step. -/
theorem Step.shift {w w' : World} (h : Reachable w) (hs : Step w w') : ∃ o, Shift o w.mem.m w'.mem.m := by
  have T := tracks h
  have same : Shift .scrape w.mem.m w.mem.m := (Grew.refl .scrape w.mem.m).shift T
  cases hs with
  | start msg now c n _ hr => exact ⟨_, (Message.run_grew hr).shift T⟩
  | startTrap msg now e _ hr => exact ⟨_, same⟩
  | execute pre post id t ht _ => exact ⟨_, same⟩
  | refuse pre post id t e ht _ => exact ⟨_, same⟩
  | reject pre post id t ht => exact ⟨_, same⟩
  | deliver pre post id t a now c n ht hr => exact ⟨_, (LedgerTask.resume_grew hr).shift T⟩
  | deliverTrap pre post id t a now e c ht hr hc => exact ⟨_, (Task.cleanup_grew hc).shift T⟩
  | kill pre post id t a c ht hc => exact ⟨_, (Task.cleanup_grew hc).shift T⟩
  | answer pre post id t o a now c n ht _ hr => exact ⟨_, (ExtTask.resume_grew hr).shift T⟩
  | answerTrap pre post id t o a now e c ht _ hr hc => exact ⟨_, (Task.cleanup_grew hc).shift T⟩
  | killExt pre post id t o c ht hc => exact ⟨_, (Task.cleanup_grew hc).shift T⟩
  | foreign call _ => exact ⟨_, same⟩
  | upgrade arg log s ht hp =>
    obtain ⟨h1, h2⟩ := postUpgrade_grew hp
    exact ⟨_, (Grew.mk (o := .lifecycle) (m' := ⟨s, log⟩) h2 (fun _ => h1) (fun _ h => absurd rfl h) fun _ h => absurd rfl h).shift T⟩

/-- What only grows. -/
structure Grows (w w' : World) : Prop where
  blocks : ∃ bs, w'.blocks = w.blocks ++ bs
  log : ∃ es, w'.mem.m.log = w.mem.m.log ++ es
  fixed : w'.mem.m.st.fixed = w.mem.m.st.fixed
  tokens : ∀ {l c sym}, w.mem.m.st.erc20Tokens.Has l c sym → w'.mem.m.st.erc20Tokens.Has l c sym
  id : w'.mem.id = w.mem.id
  started : ∃ l, w'.started = w.started ++ l
  finished : ∃ l, w'.finished = w.finished ++ l

theorem Step.grows {w w' : World} (h : Reachable w) (hs : Step w w') : Grows w w' := by
  obtain ⟨o, S⟩ := Step.shift h hs
  have hi : w'.mem.id = w.mem.id := by
    cases hs with
    | start msg now c n _ hr => exact (Message.run_takes hr).id
    | deliver pre post id t a now c n ht hr => exact (LedgerTask.resume_locks hr).id
    | deliverTrap pre post id t a now e c ht hr hc => exact (Task.cleanup_locks hc).id
    | kill pre post id t a c ht hc => exact (Task.cleanup_locks hc).id
    | answer pre post id t o a now c n ht _ hr => exact (ExtTask.resume_locks hr).id
    | answerTrap pre post id t o a now e c ht _ hr hc => exact (Task.cleanup_locks hc).id
    | killExt pre post id t o c ht hc => exact (Task.cleanup_locks hc).id
    | _ => rfl
  refine ⟨?_, S.log, S.fixed, S.tokens, hi, ?_, ?_⟩
  · cases hs <;> first | exact ⟨_, rfl⟩ | exact ⟨[], by simp [World.advance, World.drop, World.begin]⟩
  · cases hs <;> first | exact ⟨_, rfl⟩ | exact ⟨[], by simp [World.advance, World.drop, World.begin]⟩
  · cases hs <;> first | exact ⟨_, rfl⟩ | exact ⟨[], by simp [World.advance, World.drop, World.begin]⟩

omit [Keccak] in
theorem Grows.refl (w : World) : Grows w w :=
  ⟨⟨[], by simp⟩, ⟨[], by simp⟩, rfl, fun h => h, rfl, ⟨[], by simp⟩, ⟨[], by simp⟩⟩

omit [Keccak] in
theorem Grows.trans {w w' w'' : World} (h : Grows w w') (h' : Grows w' w'') : Grows w w'' := by
  obtain ⟨b, hb⟩ := h.blocks; obtain ⟨b', hb'⟩ := h'.blocks
  obtain ⟨l, hl⟩ := h.log; obtain ⟨l', hl'⟩ := h'.log
  obtain ⟨s, hs⟩ := h.started; obtain ⟨s', hs'⟩ := h'.started
  obtain ⟨f, hf⟩ := h.finished; obtain ⟨f', hf'⟩ := h'.finished
  exact ⟨⟨b ++ b', by rw [hb', hb, List.append_assoc]⟩, ⟨l ++ l', by rw [hl', hl, List.append_assoc]⟩, h'.fixed.trans h.fixed,
    fun hh => h'.tokens (h.tokens hh), h'.id.trans h.id, ⟨s ++ s', by rw [hs', hs, List.append_assoc]⟩,
    ⟨f ++ f', by rw [hf', hf, List.append_assoc]⟩⟩

omit [Keccak] in
theorem Grows.blockAt {w w' : World} (h : Grows w w') {l : Principal} {i : Nat} {b : Block} (hb : w.blockAt l i = some b) :
    w'.blockAt l i = some b := by
  obtain ⟨bs, hbs⟩ := h.blocks
  unfold World.blockAt at hb ⊢
  rw [hbs, List.filter_append, List.getElem?_append_left]
  · exact hb
  · exact (List.getElem?_eq_some_iff.1 hb).1

omit [Keccak] in
theorem Grows.nativeLedger {w w' : World} (h : Grows w w') : w'.mem.m.st.nativeLedgerId = w.mem.m.st.nativeLedgerId :=
  congrArg FixedConfig.nativeLedgerId h.fixed

theorem Spec.Leads.reachable {w w' : World} (h : Leads w w') (hr : Reachable w) : Reachable w' := by
  induction h with
  | refl => exact hr
  | step w' w'' _ hs ih => exact .step _ _ ih hs

theorem Spec.Leads.grows {w w' : World} (h : Leads w w') (hr : Reachable w) : Grows w w' := by
  induction h with
  | refl => exact .refl _
  | step w' w'' hl hs ih => exact ih.trans (Step.grows (hl.reachable hr) hs)

/-- `w` is a reachable world before `W`. -/
structure Before (W w : World) : Prop where
  reachable : Reachable w
  leads : Leads w W

theorem Before.step {W W' w : World} (h : Before W w) (hs : Step W W') : Before W' w := ⟨h.reachable, .step _ _ _ h.leads hs⟩

theorem Before.grows {W w : World} (h : Before W w) : Grows w W := h.leads.grows h.reachable

theorem _root_.EvmMinter.Spec.Arrived.step {W W' w : World} {id : Nat} (h : Arrived w W id) (hs : Step W W') : Arrived w W' id := by
  obtain ⟨w₁, h1, h2, h3⟩ := h.starts
  exact ⟨h.reachable, h.next, w₁, h1, h2, .step _ _ _ h3 hs⟩

theorem _root_.EvmMinter.Spec.Leads.trans {w w' w'' : World} (h : Leads w w') (h' : Leads w' w'') : Leads w w'' := by
  induction h' with
  | refl => exact h
  | step _ _ _ hs ih => exact .step _ _ _ ih hs

theorem _root_.EvmMinter.Spec.Arrived.leads {w₀ w w' : World} {id : Nat} (h : Arrived w₀ w id) (hl : Leads w w') : Arrived w₀ w' id := by
  obtain ⟨w₁, h1, h2, h3⟩ := h.starts
  exact ⟨h.reachable, h.next, w₁, h1, h2, h3.trans hl⟩

theorem _root_.EvmMinter.Spec.Arrived.before {w₀ w : World} {id : Nat} (h : Arrived w₀ w id) : Before w w₀ := by
  obtain ⟨w₁, h1, h2, h3⟩ := h.starts
  exact ⟨h.reachable, (Leads.step _ _ _ (.refl _) h1).trans h3⟩

/-- Where a message is: waiting, or ended. -/
inductive Progress where
  | waiting (t : Task) (a : Option LedgerAnswer)
  | done (o : Outcome)

def Next.status : Next → Progress
  | .await t => .waiting t none
  | .finish r => .done (.replied r)

def Spec.World.Has (w : World) (id : Nat) : Progress → Prop
  | .waiting t a => ⟨id, t, a⟩ ∈ w.tasks
  | .done o => (id, o) ∈ w.finished

/-- The events recorded between two memories. -/
def news (c c' : Mem) : List Event := c'.m.log.drop c.m.log.length

inductive Thread (W : World) (id : Nat) (msg : Message) : List Block → List Event → Progress → Prop where
  | start (w : World) (now : Nat) (c : Mem) (n : Next) : Before W w → Arrived w W id → msg.Typed → msg.run w.mem now = .ok (c, n) →
      Thread W id msg [] (news w.mem c) n.status
  | startTrap (w : World) (now : Nat) (e : String) : Before W w → Arrived w W id → msg.Typed → msg.run w.mem now = .error e →
      Thread W id msg [] [] (.done .trapped)
  | execute (w : World) (bl : List Block) (ev : List Event) (t : LedgerTask) : Thread W id msg bl ev (.waiting (.ledger t) none) →
      Before W w → ⟨id, .ledger t, none⟩ ∈ w.tasks → w.height (t.call w.mem.id).ledger < 2 ^ 64 →
      w.blockAt (t.call w.mem.id).ledger (w.height (t.call w.mem.id).ledger) = none →
      W.blockAt (t.call w.mem.id).ledger (w.height (t.call w.mem.id).ledger) = some ⟨t.call w.mem.id, some (id, t)⟩ →
      Thread W id msg (bl ++ [⟨t.call w.mem.id, some (id, t)⟩]) ev
        (.waiting (.ledger t) (some (.block (w.height (t.call w.mem.id).ledger))))
  | refuse (w : World) (bl : List Block) (ev : List Event) (t : LedgerTask) (e : TransferError) :
      Thread W id msg bl ev (.waiting (.ledger t) none) → Before W w → ⟨id, .ledger t, none⟩ ∈ w.tasks →
      MayRefuse (t.call w.mem.id).op e → Thread W id msg bl ev (.waiting (.ledger t) (some (.refused e)))
  | reject (w : World) (bl : List Block) (ev : List Event) (t : LedgerTask) :
      Thread W id msg bl ev (.waiting (.ledger t) none) → Before W w → ⟨id, .ledger t, none⟩ ∈ w.tasks →
      Thread W id msg bl ev (.waiting (.ledger t) (some .rejected))
  | deliver (w : World) (bl : List Block) (ev : List Event) (t : LedgerTask) (a : LedgerAnswer) (now : Nat) (c : Mem) (n : Next) :
      Thread W id msg bl ev (.waiting (.ledger t) (some a)) → Before W w → ⟨id, .ledger t, some a⟩ ∈ w.tasks →
      t.resume w.mem a now = .ok (c, n) → Thread W id msg bl (ev ++ news w.mem c) n.status
  | deliverTrap (w : World) (bl : List Block) (ev : List Event) (t : LedgerTask) (a : LedgerAnswer) (now : Nat) (e : String)
      (c : Mem) : Thread W id msg bl ev (.waiting (.ledger t) (some a)) → Before W w → ⟨id, .ledger t, some a⟩ ∈ w.tasks →
      t.resume w.mem a now = .error e → (Task.ledger t).cleanup w.mem = .ok c →
      Thread W id msg bl (ev ++ news w.mem c) (.done .trapped)
  | kill (w : World) (bl : List Block) (ev : List Event) (t : LedgerTask) (a : LedgerAnswer) (c : Mem) :
      Thread W id msg bl ev (.waiting (.ledger t) (some a)) → Before W w → ⟨id, .ledger t, some a⟩ ∈ w.tasks →
      (Task.ledger t).cleanup w.mem = .ok c → Thread W id msg bl (ev ++ news w.mem c) (.done .killed)
  | answer (w : World) (bl : List Block) (ev : List Event) (t : ExtTask) (o : Option LedgerAnswer) (a : ExtAnswer) (now : Nat)
      (c : Mem) (n : Next) : Thread W id msg bl ev (.waiting (.ext t) o) → Before W w → ⟨id, .ext t, o⟩ ∈ w.tasks → a.Typed →
      t.resume w.mem now a = some (.ok (c, n)) → Thread W id msg bl (ev ++ news w.mem c) n.status
  | answerTrap (w : World) (bl : List Block) (ev : List Event) (t : ExtTask) (o : Option LedgerAnswer) (a : ExtAnswer) (now : Nat)
      (e : String) (c : Mem) : Thread W id msg bl ev (.waiting (.ext t) o) → Before W w → ⟨id, .ext t, o⟩ ∈ w.tasks → a.Typed →
      t.resume w.mem now a = some (.error e) → (Task.ext t).cleanup w.mem = .ok c →
      Thread W id msg bl (ev ++ news w.mem c) (.done .trapped)
  | killExt (w : World) (bl : List Block) (ev : List Event) (t : ExtTask) (o : Option LedgerAnswer) (c : Mem) :
      Thread W id msg bl ev (.waiting (.ext t) o) → Before W w → ⟨id, .ext t, o⟩ ∈ w.tasks →
      (Task.ext t).cleanup w.mem = .ok c → Thread W id msg bl (ev ++ news w.mem c) (.done .killed)

theorem Thread.mono {W W' : World} {id : Nat} {msg : Message} {bl : List Block} {ev : List Event} {st : Progress} (hW : Reachable W)
    (hs : Step W W') (h : Thread W id msg bl ev st) : Thread W' id msg bl ev st := by
  have G := Step.grows hW hs
  induction h with
  | start w now c n hb hn ht hr => exact .start w now c n (hb.step hs) (hn.step hs) ht hr
  | startTrap w now e hb hn ht hr => exact .startTrap w now e (hb.step hs) (hn.step hs) ht hr
  | execute w bl ev t _ hb hm hh h0 h1 ih => exact .execute w bl ev t ih (hb.step hs) hm hh h0 (G.blockAt h1)
  | refuse w bl ev t e _ hb hm hr ih => exact .refuse w bl ev t e ih (hb.step hs) hm hr
  | reject w bl ev t _ hb hm ih => exact .reject w bl ev t ih (hb.step hs) hm
  | deliver w bl ev t a now c n _ hb hm hr ih => exact .deliver w bl ev t a now c n ih (hb.step hs) hm hr
  | deliverTrap w bl ev t a now e c _ hb hm hr hc ih => exact .deliverTrap w bl ev t a now e c ih (hb.step hs) hm hr hc
  | kill w bl ev t a c _ hb hm hc ih => exact .kill w bl ev t a c ih (hb.step hs) hm hc
  | answer w bl ev t o a now c n _ hb hm ht hr ih => exact .answer w bl ev t o a now c n ih (hb.step hs) hm ht hr
  | answerTrap w bl ev t o a now e c _ hb hm ht hr hc ih => exact .answerTrap w bl ev t o a now e c ih (hb.step hs) hm ht hr hc
  | killExt w bl ev t o c _ hb hm hc ih => exact .killExt w bl ev t o c ih (hb.step hs) hm hc

omit [Keccak] in
theorem IdInv.unique {w : World} (I : IdInv w) {p q : Pending} (hp : p ∈ w.tasks) (hq : q ∈ w.tasks) (he : p.id = q.id) : p = q := by
  have hn := (List.nodup_append.1 I.nodup).1
  revert hp hq hn
  generalize w.tasks = l
  intro hp hq hn
  induction l with
  | nil => cases hp
  | cons x t ih =>
    simp only [List.map_cons, List.nodup_cons, List.mem_map, not_exists, not_and] at hn
    rcases List.mem_cons.1 hp with rfl | hp'
    · rcases List.mem_cons.1 hq with rfl | hq'
      · rfl
      · exact absurd he.symm (hn.1 q hq')
    · rcases List.mem_cons.1 hq with rfl | hq'
      · exact absurd he (hn.1 p hp')
      · exact ih hp' hq' hn.2

omit [Keccak] in
theorem IdInv.task_not_finished {w : World} (I : IdInv w) {p : Pending} {o : Outcome} (hp : p ∈ w.tasks) (hf : (p.id, o) ∈ w.finished) :
    False :=
  (List.nodup_append.1 I.nodup).2.2 _ (List.mem_map_of_mem hp) _ (List.mem_map.2 ⟨_, hf, rfl⟩) rfl

omit [Keccak] in
theorem IdInv.has_unique {w : World} (I : IdInv w) {id : Nat} {t : Task} {a : Option LedgerAnswer} {st : Progress}
    (hp : ⟨id, t, a⟩ ∈ w.tasks) (hs : w.Has id st) : st = .waiting t a := by
  cases st with
  | waiting t' a' =>
    have := I.unique hp hs rfl
    cases this; rfl
  | done o => exact (I.task_not_finished hp hs).elim

omit [Keccak] in
theorem IdInv.finished_unique {w : World} (I : IdInv w) {id : Nat} {o : Outcome} {st : Progress} (hp : (id, o) ∈ w.finished)
    (hs : w.Has id st) : st = .done o := by
  cases st with
  | waiting t' a' => exact (I.task_not_finished (p := ⟨id, t', a'⟩) hs hp).elim
  | done o' =>
    have hn := (List.nodup_append.1 I.nodup).2.1
    have hs : (id, o') ∈ w.finished := hs
    revert hp hs hn
    generalize w.finished = l
    intro hp hn hs
    induction l with
    | nil => cases hp
    | cons x t ih =>
      simp only [List.map_cons, List.nodup_cons, List.mem_map, not_exists, not_and] at hn
      rcases List.mem_cons.1 hp with rfl | hp'
      · rcases List.mem_cons.1 hs with h | hs'
        · cases h; rfl
        · exact absurd rfl (hn.1 (id, o') hs')
      · rcases List.mem_cons.1 hs with rfl | hs'
        · exact absurd rfl (hn.1 (id, o) hp')
        · exact ih hp' hn.2 hs'

omit [Keccak] in
theorem IdInv.started_unique {w : World} (I : IdInv w) {id : Nat} {m m' : Message} (hm : (id, m) ∈ w.started)
    (hm' : (id, m') ∈ w.started) : m = m' := by
  have hn : (w.started.map (·.1)).Nodup := by rw [I.started]; exact List.nodup_range
  revert hm hm' hn
  generalize w.started = l
  intro hm hm' hn
  induction l with
  | nil => cases hm
  | cons x t ih =>
    simp only [List.map_cons, List.nodup_cons, List.mem_map, not_exists, not_and] at hn
    rcases List.mem_cons.1 hm with rfl | hp'
    · rcases List.mem_cons.1 hm' with h | hs'
      · cases h; rfl
      · exact absurd rfl (hn.1 (id, m') hs')
    · rcases List.mem_cons.1 hm' with rfl | hs'
      · exact absurd rfl (hn.1 (id, m) hp')
      · exact ih hp' hs' hn.2

omit [Keccak] in
theorem eventsOf_new (tr : List (Nat × Event)) (id id' : Nat) (c c' : Mem) :
    ((tr ++ newEvents id' c c').filter fun x => x.1 == id).map (·.2) =
      ((tr.filter fun x => x.1 == id).map (·.2)) ++ (if id' = id then news c c' else []) := by
  rw [List.filter_append, List.map_append]
  congr 1
  unfold newEvents
  show List.map _ (List.filter _ ((news c c').map _)) = _
  generalize news c c' = l
  by_cases h : id' = id
  · subst h
    rw [if_pos rfl]
    induction l with
    | nil => rfl
    | cons e t ih => simpa using ih
  · rw [if_neg h]
    induction l with
    | nil => rfl
    | cons e t ih => simp [h]

omit [Keccak] in
theorem blocksOf_new (bs : List Block) (id : Nat) (b : Block) :
    ((bs ++ [b]).filter fun b => b.by'.map (·.1) == some id) =
      (bs.filter fun b => b.by'.map (·.1) == some id) ++ (if b.by'.map (·.1) = some id then [b] else []) := by
  rw [List.filter_append]
  congr 1
  by_cases h : b.by'.map (·.1) = some id
  · simp [h]
  · rw [if_neg h]
    simp [h]

/-- Nothing carries an id that has not been given away. -/
structure FreshInv (w : World) : Prop where
  blocks : ∀ b ∈ w.blocks, ∀ i t, b.by' = some (i, t) → i < w.nextId
  trace : ∀ x ∈ w.trace, x.1 < w.nextId

theorem freshInv {w : World} (h : Reachable w) : FreshInv w := by
  refine ⟨fun b hb i t ht => ((blockInv h).own b hb i t ht).2, ?_⟩
  induction h with
  | init id a s blocks _ _ => intro x hx; cases hx
  | step w w' hr hs ih =>
    have I := idInv hr
    have new : ∀ {id : Nat} {c : Mem}, id < w.nextId → ∀ x ∈ w.trace ++ newEvents id w.mem c, x.1 < w.nextId := by
      intro id c hid x hx
      rcases List.mem_append.1 hx with hx | hx
      · exact ih x hx
      · obtain ⟨e, _, rfl⟩ := List.mem_map.1 hx
        exact hid
    have lt : ∀ {pre post : List Pending} {p : Pending}, w.tasks = pre ++ p :: post → p.id < w.nextId := by
      intro pre post p ht
      refine I.lt _ (List.mem_append_left _ (List.mem_map_of_mem ?_))
      rw [ht]; simp
    have new' : ∀ {c : Mem}, ∀ x ∈ w.trace ++ newEvents w.nextId w.mem c, x.1 < w.nextId + 1 := by
      intro c x hx
      rcases List.mem_append.1 hx with hx | hx
      · exact Nat.lt_succ_of_lt (ih x hx)
      · obtain ⟨e, _, rfl⟩ := List.mem_map.1 hx
        exact Nat.lt_succ_self _
    cases hs with
    | start msg now c n _ hr => exact new'
    | startTrap msg now e _ hr => exact new'
    | execute pre post id t ht _ => exact ih
    | refuse pre post id t e ht _ => exact ih
    | reject pre post id t ht => exact ih
    | deliver pre post id t a now c n ht hr => exact new (lt ht)
    | deliverTrap pre post id t a now e c ht hr hc => exact new (lt ht)
    | kill pre post id t a c ht hc => exact new (lt ht)
    | answer pre post id t o a now c n ht _ hr => exact new (lt ht)
    | answerTrap pre post id t o a now e c ht _ hr hc => exact new (lt ht)
    | killExt pre post id t o c ht hc => exact new (lt ht)
    | foreign call _ => exact ih
    | upgrade arg log s ht hp => exact ih

/-- Every message is a thread. -/
theorem thread {w : World} (h : Reachable w) : ∀ {id : Nat} {msg : Message}, (id, msg) ∈ w.started →
    ∃ st, Thread w id msg (w.blocksOf id) (w.eventsOf id) st ∧ w.Has id st := by
  induction h with
  | init id a s blocks _ _ => intro id msg hm; cases hm
  | step w w' hr hs ih =>
    intro id msg hm
    have I := idInv hr
    have F := freshInv hr
    -- another message moved
    have other : ∀ {st : Progress}, Thread w id msg (w.blocksOf id) (w.eventsOf id) st → w'.Has id st →
        w'.blocksOf id = w.blocksOf id → w'.eventsOf id = w.eventsOf id →
        ∃ st, Thread w' id msg (w'.blocksOf id) (w'.eventsOf id) st ∧ w'.Has id st := by
      intro st ht hh h1 h2
      rw [h1, h2]
      exact ⟨st, ht.mono hr hs, hh⟩
    have keep : ∀ {pre post x fin : List Pending} {p : Pending} {st : Progress} {f : List (Nat × Outcome)}, w.tasks = pre ++ p :: post →
        p.id ≠ id → w.Has id st → (∀ q ∈ pre ++ post, q ∈ w'.tasks) → w'.finished = w.finished ++ f → w'.Has id st := by
      intro pre post x fin p st f ht hne hh h1 h2
      cases st with
      | waiting t a =>
        have : (⟨id, t, a⟩ : Pending) ∈ w.tasks := hh
        rw [ht] at this
        simp only [List.mem_append, List.mem_cons] at this
        refine h1 _ ?_
        rcases this with h | rfl | h
        · simp [h]
        · exact absurd rfl hne
        · simp [h]
      | done o =>
        show (id, o) ∈ w'.finished
        rw [h2]
        exact List.mem_append_left _ hh
    have fresh : id ≠ w.nextId → (id, msg) ∈ w'.started → w'.started = w.started ++ [(w.nextId, msg)] → (id, msg) ∈ w.started := by
      intro hne hm he
      rw [he] at hm
      rcases List.mem_append.1 hm with hm | hm
      · exact hm
      · simp only [List.mem_singleton, Prod.mk.injEq] at hm
        exact absurd hm.1 hne
    have now0 : Before w' w := ⟨hr, .step _ _ _ (.refl w) hs⟩
    have hs0 := hs
    have emptyB : w.blocksOf w.nextId = [] := by
      unfold World.blocksOf
      rw [List.filter_eq_nil_iff]
      intro b hb hc
      cases ht : b.by' with
      | none => simp [ht] at hc
      | some x =>
        obtain ⟨i, t⟩ := x
        have := F.blocks b hb i t ht
        simp only [ht, Option.map_some, beq_iff_eq, Option.some.injEq] at hc
        omega
    have emptyE : w.eventsOf w.nextId = [] := by
      unfold World.eventsOf
      rw [List.map_eq_nil_iff, List.filter_eq_nil_iff]
      intro x hx hc
      have := F.trace x hx
      simp only [beq_iff_eq] at hc
      omega
    cases hs with
    | start msg' now c n hty hrun =>
      have e1 := eventsOf_new w.trace id w.nextId w.mem c
      by_cases hid : id = w.nextId
      · subst hid
        have hmsg : msg = msg' := by
          have : (w.nextId, msg) ∈ w.started ++ [(w.nextId, msg')] := hm
          rcases List.mem_append.1 this with h | h
          · have := I.started ▸ List.mem_map_of_mem (f := Prod.fst) h
            simp at this
          · simpa using h
        subst hmsg
        refine ⟨n.status, ?_, ?_⟩
        · have := Thread.start (W := (w.begin msg).advance w.tasks [] w.nextId c n) (id := w.nextId) (msg := msg) w now c n now0 ⟨hr, rfl, _, hs0, rfl, .refl _⟩ hty hrun
          rw [if_pos rfl] at e1
          have e0 : ((w.begin msg).advance w.tasks [] w.nextId c n).eventsOf w.nextId = news w.mem c := by
            refine Eq.trans (show _ = _ from e1) ?_
            show w.eventsOf w.nextId ++ _ = _
            rw [emptyE]; rfl
          rw [e0]
          have eb : ((w.begin msg).advance w.tasks [] w.nextId c n).blocksOf w.nextId = [] := emptyB
          rw [eb]
          exact this
        · cases n with
          | await t => simp [Next.status, World.Has, World.advance, Next.pending]
          | finish r => simp [Next.status, World.Has, World.advance, Next.finished]
      · have hm' : (id, msg) ∈ w.started := by
          have : (id, msg) ∈ w.started ++ [(w.nextId, msg')] := hm
          rcases List.mem_append.1 this with h | h
          · exact h
          · simp only [List.mem_singleton, Prod.mk.injEq] at h; exact absurd h.1 hid
        obtain ⟨st, ht, hh⟩ := ih hm'
        refine other ht ?_ rfl ?_
        · cases st with
          | waiting t a =>
            show _ ∈ w.tasks ++ _ ++ []
            simp only [List.append_nil, List.mem_append]
            exact .inl hh
          | done o => exact List.mem_append_left _ hh
        · rw [if_neg (fun h => hid h.symm), List.append_nil] at e1
          exact e1
    | startTrap msg' now e hty hrun =>
      have e1 := eventsOf_new w.trace id w.nextId w.mem w.mem
      have hnews : news w.mem w.mem = [] := by simp [news]
      rw [hnews] at e1
      simp only [ite_self, List.append_nil] at e1
      by_cases hid : id = w.nextId
      · subst hid
        have hmsg : msg = msg' := by
          have : (w.nextId, msg) ∈ w.started ++ [(w.nextId, msg')] := hm
          rcases List.mem_append.1 this with h | h
          · have := I.started ▸ List.mem_map_of_mem (f := Prod.fst) h
            simp at this
          · simpa using h
        subst hmsg
        refine ⟨.done .trapped, ?_, by simp [World.Has, World.drop]⟩
        have := Thread.startTrap (W := (w.begin msg).drop w.tasks [] w.nextId w.mem .trapped) (id := w.nextId) (msg := msg) w now e now0 ⟨hr, rfl, _, hs0, rfl, .refl _⟩ hty hrun
        have e0 : ((w.begin msg).drop w.tasks [] w.nextId w.mem .trapped).eventsOf w.nextId = [] := Eq.trans e1 emptyE
        have eb : ((w.begin msg).drop w.tasks [] w.nextId w.mem .trapped).blocksOf w.nextId = [] := emptyB
        rw [e0, eb]
        exact this
      · have hm' : (id, msg) ∈ w.started := by
          have : (id, msg) ∈ w.started ++ [(w.nextId, msg')] := hm
          rcases List.mem_append.1 this with h | h
          · exact h
          · simp only [List.mem_singleton, Prod.mk.injEq] at h; exact absurd h.1 hid
        obtain ⟨st, ht, hh⟩ := ih hm'
        refine other ht ?_ rfl e1
        cases st with
        | waiting t a =>
          show _ ∈ w.tasks ++ []
          rw [List.append_nil]
          exact hh
        | done o => exact List.mem_append_left _ hh
    | execute pre post id' t ht hh =>
      obtain ⟨st, hT, hH⟩ := ih hm
      have e1 := blocksOf_new w.blocks id ⟨t.call w.mem.id, some (id', t)⟩
      by_cases hid : id' = id
      · subst hid
        have hmem : (⟨id', .ledger t, none⟩ : Pending) ∈ w.tasks := by rw [ht]; simp
        have := I.has_unique hmem hH
        subst this
        refine ⟨.waiting (.ledger t) (some (.block (w.height (t.call w.mem.id).ledger))), ?_, by simp [World.Has]⟩
        rw [if_pos (by rfl)] at e1
        have := Thread.execute (id := id') (msg := msg) w _ _ t (hT.mono hr (.execute w pre post id' t ht hh)) now0 hmem hh
          (by simp [World.blockAt, World.height]) (World.blockAt_new (b := ⟨t.call w.mem.id, some (id', t)⟩) rfl)
        refine Eq.mp ?_ this
        congr 1
        exact e1.symm
      · rw [if_neg (by simpa using hid), List.append_nil] at e1
        exact other hT (keep (x := []) (fin := []) (f := []) ht hid hH (fun q hq => by
          simp only [List.mem_append, List.mem_cons] at hq ⊢
          rcases hq with h | h
          · exact .inl h
          · exact .inr (.inr h)) (by simp)) e1 rfl
    | refuse pre post id' t e ht hh =>
      obtain ⟨st, hT, hH⟩ := ih hm
      by_cases hid : id' = id
      · subst hid
        have hmem : (⟨id', .ledger t, none⟩ : Pending) ∈ w.tasks := by rw [ht]; simp
        have := I.has_unique hmem hH
        subst this
        exact ⟨.waiting (.ledger t) (some (.refused e)),
          Thread.refuse (id := id') (msg := msg) w _ _ t e (hT.mono hr (.refuse w pre post id' t e ht hh)) now0 hmem hh,
          by simp [World.Has]⟩
      · exact other hT (keep (x := []) (fin := []) (f := []) ht hid hH (fun q hq => by
          simp only [List.mem_append, List.mem_cons] at hq ⊢
          rcases hq with h | h
          · exact .inl h
          · exact .inr (.inr h)) (by simp)) rfl rfl
    | reject pre post id' t ht =>
      obtain ⟨st, hT, hH⟩ := ih hm
      by_cases hid : id' = id
      · subst hid
        have hmem : (⟨id', .ledger t, none⟩ : Pending) ∈ w.tasks := by rw [ht]; simp
        have := I.has_unique hmem hH
        subst this
        exact ⟨.waiting (.ledger t) (some .rejected),
          Thread.reject (id := id') (msg := msg) w _ _ t (hT.mono hr (.reject w pre post id' t ht)) now0 hmem,
          by simp [World.Has]⟩
      · exact other hT (keep (x := []) (fin := []) (f := []) ht hid hH (fun q hq => by
          simp only [List.mem_append, List.mem_cons] at hq ⊢
          rcases hq with h | h
          · exact .inl h
          · exact .inr (.inr h)) (by simp)) rfl rfl
    | deliver pre post id' t a now c n ht hrun =>
      obtain ⟨st, hT, hH⟩ := ih hm
      have e1 := eventsOf_new w.trace id id' w.mem c
      by_cases hid : id' = id
      · subst hid
        have hmem : (⟨id', .ledger t, some a⟩ : Pending) ∈ w.tasks := by rw [ht]; simp
        have := I.has_unique hmem hH
        subst this
        refine ⟨n.status, ?_, ?_⟩
        · rw [if_pos rfl] at e1
          have := Thread.deliver (id := id') (msg := msg) w _ _ t a now c n (hT.mono hr (.deliver w pre post id' t a now c n ht hrun)) now0 hmem hrun
          refine Eq.mp ?_ this
          congr 1
          exact e1.symm
        · cases n with
          | await t => simp [Next.status, World.Has, World.advance, Next.pending]
          | finish r => simp [Next.status, World.Has, World.advance, Next.finished]
      · rw [if_neg hid, List.append_nil] at e1
        exact other hT (keep (x := []) (fin := []) ht hid hH (fun q hq => by
          simp only [World.advance, List.mem_append] at hq ⊢
          rcases hq with h | h
          · exact .inl (.inl h)
          · exact .inr h) rfl) rfl e1
    | deliverTrap pre post id' t a now e c ht hrun hc =>
      obtain ⟨st, hT, hH⟩ := ih hm
      have e1 := eventsOf_new w.trace id id' w.mem c
      by_cases hid : id' = id
      · subst hid
        have hmem : (⟨id', .ledger t, some a⟩ : Pending) ∈ w.tasks := by rw [ht]; simp
        have := I.has_unique hmem hH
        subst this
        refine ⟨.done .trapped, ?_, by simp [World.Has, World.drop]⟩
        rw [if_pos rfl] at e1
        have := Thread.deliverTrap (id := id') (msg := msg) w _ _ t a now e c (hT.mono hr (.deliverTrap w pre post id' t a now e c ht hrun hc)) now0 hmem hrun hc
        refine Eq.mp ?_ this
        congr 1
        exact e1.symm
      · rw [if_neg hid, List.append_nil] at e1
        exact other hT (keep (x := []) (fin := []) ht hid hH (fun q hq => hq) rfl) rfl e1
    | kill pre post id' t a c ht hc =>
      obtain ⟨st, hT, hH⟩ := ih hm
      have e1 := eventsOf_new w.trace id id' w.mem c
      by_cases hid : id' = id
      · subst hid
        have hmem : (⟨id', .ledger t, some a⟩ : Pending) ∈ w.tasks := by rw [ht]; simp
        have := I.has_unique hmem hH
        subst this
        refine ⟨.done .killed, ?_, by simp [World.Has, World.drop]⟩
        rw [if_pos rfl] at e1
        have := Thread.kill (id := id') (msg := msg) w _ _ t a c (hT.mono hr (.kill w pre post id' t a c ht hc)) now0 hmem hc
        refine Eq.mp ?_ this
        congr 1
        exact e1.symm
      · rw [if_neg hid, List.append_nil] at e1
        exact other hT (keep (x := []) (fin := []) ht hid hH (fun q hq => hq) rfl) rfl e1
    | answer pre post id' t o a now c n ht hty hrun =>
      obtain ⟨st, hT, hH⟩ := ih hm
      have e1 := eventsOf_new w.trace id id' w.mem c
      by_cases hid : id' = id
      · subst hid
        have hmem : (⟨id', .ext t, o⟩ : Pending) ∈ w.tasks := by rw [ht]; simp
        have := I.has_unique hmem hH
        subst this
        refine ⟨n.status, ?_, ?_⟩
        · rw [if_pos rfl] at e1
          have := Thread.answer (id := id') (msg := msg) w _ _ t o a now c n (hT.mono hr (.answer w pre post id' t o a now c n ht hty hrun)) now0 hmem hty hrun
          refine Eq.mp ?_ this
          congr 1
          exact e1.symm
        · cases n with
          | await t => simp [Next.status, World.Has, World.advance, Next.pending]
          | finish r => simp [Next.status, World.Has, World.advance, Next.finished]
      · rw [if_neg hid, List.append_nil] at e1
        exact other hT (keep (x := []) (fin := []) ht hid hH (fun q hq => by
          simp only [World.advance, List.mem_append] at hq ⊢
          rcases hq with h | h
          · exact .inl (.inl h)
          · exact .inr h) rfl) rfl e1
    | answerTrap pre post id' t o a now e c ht hty hrun hc =>
      obtain ⟨st, hT, hH⟩ := ih hm
      have e1 := eventsOf_new w.trace id id' w.mem c
      by_cases hid : id' = id
      · subst hid
        have hmem : (⟨id', .ext t, o⟩ : Pending) ∈ w.tasks := by rw [ht]; simp
        have := I.has_unique hmem hH
        subst this
        refine ⟨.done .trapped, ?_, by simp [World.Has, World.drop]⟩
        rw [if_pos rfl] at e1
        have := Thread.answerTrap (id := id') (msg := msg) w _ _ t o a now e c (hT.mono hr (.answerTrap w pre post id' t o a now e c ht hty hrun hc)) now0 hmem hty hrun hc
        refine Eq.mp ?_ this
        congr 1
        exact e1.symm
      · rw [if_neg hid, List.append_nil] at e1
        exact other hT (keep (x := []) (fin := []) ht hid hH (fun q hq => hq) rfl) rfl e1
    | killExt pre post id' t o c ht hc =>
      obtain ⟨st, hT, hH⟩ := ih hm
      have e1 := eventsOf_new w.trace id id' w.mem c
      by_cases hid : id' = id
      · subst hid
        have hmem : (⟨id', .ext t, o⟩ : Pending) ∈ w.tasks := by rw [ht]; simp
        have := I.has_unique hmem hH
        subst this
        refine ⟨.done .killed, ?_, by simp [World.Has, World.drop]⟩
        rw [if_pos rfl] at e1
        have := Thread.killExt (id := id') (msg := msg) w _ _ t o c (hT.mono hr (.killExt w pre post id' t o c ht hc)) now0 hmem hc
        refine Eq.mp ?_ this
        congr 1
        exact e1.symm
      · rw [if_neg hid, List.append_nil] at e1
        exact other hT (keep (x := []) (fin := []) ht hid hH (fun q hq => hq) rfl) rfl e1
    | foreign call hf =>
      obtain ⟨st, hT, hH⟩ := ih hm
      have e1 := blocksOf_new w.blocks id ⟨call, none⟩
      rw [if_neg (by simp), List.append_nil] at e1
      exact other hT (by cases st <;> exact hH) e1 rfl
    | upgrade arg log s ht hp =>
      obtain ⟨st, hT, hH⟩ := ih hm
      exact other hT (by cases st <;> exact hH) rfl rfl

end
end EvmMinter
