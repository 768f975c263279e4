import Verif.Spec.ExampleWorld
import Verif.Spec.Fair
/-!
# Playing endless executions

`trail w₀ l` carries out the actions `l` from `w₀`, then the reimbursement timer fires for ever. Used for examples only.
-/

namespace EvmMinter
namespace Spec
variable [Keccak]

def trail (w₀ : World) (l : List Action) : Nat → World
  | 0 => w₀
  | i + 1 => ((trail w₀ l i).act (l[i]?.getD (.start .reimbursement 9))).getD (trail w₀ l i)

theorem trail_endless {w₀ : World} (h : Reachable w₀) (l : List Action) : Endless (trail w₀ l) := by
  refine ⟨h, fun i => ?_⟩
  simp only [trail]
  cases ha : (trail w₀ l i).act (l[i]?.getD (.start .reimbursement 9)) with
  | none => exact .inl rfl
  | some w' => exact .inr (World.act_step ha)

/-- Nothing is going on, and nothing is owed. -/
def World.idle (w : World) : Bool := w.tasks.isEmpty && w.mem.active.isEmpty && w.mem.m.st.txs.reimbursementRequests.toList.isEmpty

theorem start_starts {w : World} {msg : Message} {now : Nat} (ht : msg.Typed) : ∃ w', w.act (.start msg now) = some w' ∧ Starts w w' msg := by
  simp only [World.act, if_pos ht]
  split
  · rename_i c n hr; exact ⟨_, rfl, now, .inl ⟨c, n, hr, rfl⟩⟩
  · rename_i e hr; exact ⟨_, rfl, now, .inr ⟨e, hr, rfl⟩⟩

theorem trail_starts {w₀ : World} {l : List Action} {i : Nat} {msg : Message} {now : Nat} (ht : msg.Typed)
    (hl : l[i]?.getD (.start .reimbursement 9) = .start msg now) : Starts (trail w₀ l i) (trail w₀ l (i + 1)) msg := by
  obtain ⟨w', h1, h2⟩ := start_starts (w := trail w₀ l i) (now := now) ht
  simp only [trail, hl, h1, Option.getD_some]
  exact h2

/-- The timer fires with nothing to do. -/
theorem idle_start {w : World} (h : w.idle = true) :
    w.act (.start .reimbursement 9) = some ((w.begin .reimbursement).advance w.tasks [] w.nextId w.mem (.finish none)) := by
  obtain ⟨⟨id, m, lo, lt, active, ps⟩, blocks, tasks, nextId, started, finished, trace⟩ := w
  simp only [World.idle, Bool.and_eq_true, List.isEmpty_iff] at h
  obtain ⟨⟨h1, h2⟩, h3⟩ := h
  subst h1 h2
  simp [World.act, Message.Typed, Message.run, Mem.startReimbursement, Mem.acquire, h3, Mem.reimburseLoop, Mem.release]

theorem trail_quiet {w₀ : World} {l : List Action} (h : (trail w₀ l l.length).idle = true) (k : Nat) :
    (trail w₀ l (l.length + k)).mem = (trail w₀ l l.length).mem ∧ (trail w₀ l (l.length + k)).tasks = [] ∧
      (trail w₀ l (l.length + k)).blocks = (trail w₀ l l.length).blocks := by
  have ht : (trail w₀ l l.length).tasks = [] := by
    simp only [World.idle, Bool.and_eq_true, List.isEmpty_iff] at h; exact h.1.1
  induction k with
  | zero => exact ⟨rfl, ht, rfl⟩
  | succ k ih =>
    obtain ⟨h1, h2, h3⟩ := ih
    have hi : (trail w₀ l (l.length + k)).idle = true := by
      simp only [World.idle, h1, h2]
      simp only [World.idle, ht] at h
      exact h
    have : l[l.length + k]? = none := List.getElem?_eq_none (by omega)
    show (((trail w₀ l (l.length + k)).act (l[l.length + k]?.getD (.start .reimbursement 9))).getD _).mem = _ ∧
      (((trail w₀ l (l.length + k)).act (l[l.length + k]?.getD (.start .reimbursement 9))).getD _).tasks = _ ∧
      (((trail w₀ l (l.length + k)).act (l[l.length + k]?.getD (.start .reimbursement 9))).getD _).blocks = _
    rw [this, Option.getD_none, idle_start hi]
    exact ⟨h1, by simp [World.advance, World.begin, Next.pending, h2], h3⟩

theorem trail_late {w₀ : World} {l : List Action} (h : (trail w₀ l l.length).idle = true) {i : Nat} (hi : l.length ≤ i) :
    (trail w₀ l i).mem = (trail w₀ l l.length).mem ∧ (trail w₀ l i).tasks = [] ∧ (trail w₀ l i).blocks = (trail w₀ l l.length).blocks := by
  obtain ⟨k, rfl⟩ := Nat.exists_eq_add_of_le hi
  exact trail_quiet h k

def Action.isKill : Action → Bool
  | .kill _ => true
  | _ => false

def Action.isFailure : Action → Bool
  | .refuse _ _ | .reject _ => true
  | _ => false

/-- No callback is cut off. -/
theorem act_calm {w w' : World} {x : Action} (h : w.act x = some w') (hx : x.isKill = false) {id : Nat}
    (hf : (id, Outcome.killed) ∈ w'.finished) : (id, Outcome.killed) ∈ w.finished := by
  have adv : ∀ {pre post : List Pending} {i : Nat} {c : Mem} {n : Next}, (id, Outcome.killed) ∈ (w.advance pre post i c n).finished →
      (id, Outcome.killed) ∈ w.finished := by
    intro pre post i c n h
    rcases List.mem_append.1 h with h | h
    · exact h
    · cases n <;> simp [Next.finished] at h
  have drp : ∀ {pre post : List Pending} {i : Nat} {c : Mem}, (id, Outcome.killed) ∈ (w.drop pre post i c .trapped).finished →
      (id, Outcome.killed) ∈ w.finished := by
    intro pre post i c h
    rcases List.mem_append.1 h with h | h
    · exact h
    · simp at h
  cases x <;> simp only [World.act] at h
  case start msg now =>
    split at h
    · split at h
      · rename_i c n _; cases h
        rcases List.mem_append.1 hf with h | h
        · exact h
        · cases n <;> simp [Next.finished] at h
      · cases h
        rcases List.mem_append.1 hf with h | h
        · exact h
        · simp at h
    · cases h
  case execute => split at h <;> (try split at h) <;> cases h; exact hf
  case refuse => split at h <;> (try split at h) <;> cases h; exact hf
  case reject => split at h <;> cases h; exact hf
  case deliver =>
    split at h
    · split at h
      · cases h; exact adv hf
      · split at h
        · cases h; exact drp hf
        · cases h
    · cases h
  case kill => cases hx
  case answer =>
    split at h
    · split at h
      · split at h
        · cases h; exact adv hf
        · split at h
          · cases h; exact drp hf
          · cases h
        · cases h
      · cases h
    · cases h
  case foreign => split at h <;> cases h; exact hf
  case upgrade =>
    split at h
    · split at h <;> cases h; exact hf
    · cases h

/-- All answers on the way are blocks. -/
def World.accepting (w : World) : Prop := ∀ p ∈ w.tasks, ∀ a, p.answer = some a → ∃ b, a = .block b

theorem act_accepting {w w' : World} {x : Action} (h : w.act x = some w') (hx : x.isFailure = false) (hw : w.accepting) : w'.accepting := by
  have sub : ∀ {k : Nat} {l : List Pending}, (∀ p ∈ l, ∀ a, p.answer = some a → ∃ b, a = .block b) →
      ∀ p ∈ w.tasks.take k ++ l ++ w.tasks.drop (k + 1), ∀ a, p.answer = some a → ∃ b, a = .block b := by
    intro k l hl p hp
    rcases List.mem_append.1 hp with hp | hp
    · rcases List.mem_append.1 hp with hp | hp
      · exact hw p (List.mem_of_mem_take hp)
      · exact hl p hp
    · exact hw p (List.mem_of_mem_drop hp)
  have nxt : ∀ {n : Next} {i : Nat}, ∀ p ∈ n.pending i, ∀ a, p.answer = some a → ∃ b, a = .block b := by
    intro n i p hp a ha
    cases n with
    | await t => obtain rfl := List.mem_singleton.1 hp; cases ha
    | finish r => cases hp
  have nil : ∀ p ∈ ([] : List Pending), ∀ a, p.answer = some a → ∃ b, a = .block b := by intro p hp; cases hp
  cases x <;> simp only [World.act] at h
  case start msg now =>
    split at h
    · split at h
      · rename_i c n _; cases h
        intro p hp
        simp only [World.advance, World.begin, List.append_nil] at hp
        rcases List.mem_append.1 hp with hp | hp
        · exact hw p hp
        · exact nxt p hp
      · cases h
        intro p hp
        simp only [World.drop, World.begin, List.append_nil] at hp
        exact hw p hp
    · cases h
  case execute k =>
    split at h
    · rename_i id t _
      split at h
      · cases h
        have := sub (k := k) (l := [⟨id, .ledger t, some (.block (w.height (t.call w.mem.id).ledger))⟩])
          (fun p hp a ha => by obtain rfl := List.mem_singleton.1 hp; cases ha; exact ⟨_, rfl⟩)
        simpa only [World.accepting, List.append_assoc, List.singleton_append] using this
      · cases h
    · cases h
  case refuse => cases hx
  case reject => cases hx
  case deliver k now =>
    split at h
    · split at h
      · cases h; exact sub nxt
      · split at h
        · cases h
          have := sub (k := k) nil
          simpa only [World.accepting, World.drop, List.append_nil] using this
        · cases h
    · cases h
  case kill k =>
    split at h
    · split at h
      · cases h
        have := sub (k := k) nil
        simpa only [World.accepting, World.drop, List.append_nil] using this
      · cases h
    · split at h
      · cases h
        have := sub (k := k) nil
        simpa only [World.accepting, World.drop, List.append_nil] using this
      · cases h
    · cases h
  case answer k a now =>
    split at h
    · split at h
      · split at h
        · cases h; exact sub nxt
        · split at h
          · cases h
            have := sub (k := k) nil
            simpa only [World.accepting, World.drop, List.append_nil] using this
          · cases h
        · cases h
      · cases h
    · cases h
  case foreign => split at h <;> cases h; exact hw
  case upgrade =>
    split at h
    · split at h <;> cases h; exact hw
    · cases h

def World.noExt (w : World) : Bool := w.tasks.all fun p => match p.task with | .ext _ => false | _ => true

/-- The execution is steady. Action `p` fires the mint timer for the last time; after that no logs come in, and no mint ends for
which errors were counted. -/
theorem trail_steady {w₀ : World} {l : List Action} (h : (trail w₀ l l.length).idle = true) (h0 : w₀.tasks = []) (hk : l.all (!·.isKill) = true)
    {p now : Nat} (hp : l[p]? = some (.start .mint now))
    (he : (List.range l.length).all (fun i => i < p || (trail w₀ l i).noExt) = true)
    (hf : l.all (!·.isFailure) = true ∨ (List.range l.length).all (fun i => i < p || (trail w₀ l i).tasks.isEmpty) = true) :
    Steady (trail w₀ l) 0 := by
  have hlt : p < l.length := (List.getElem?_eq_some_iff.1 hp).1
  have fire : Starts (trail w₀ l p) (trail w₀ l (p + 1)) .mint := trail_starts (now := now) trivial (by rw [hp]; rfl)
  refine ⟨fun i _ id t o _ hm => ⟨max i l.length, Nat.le_max_left _ _, fun o' hm' => ?_⟩, fun i _ id hm => ?_, fun i _ t a hA hs => ?_,
    fun i j _ hij id t a n t' a' r hd hc hd' => ?_, fun i => ⟨max i l.length, Nat.le_max_left _ _, ?_⟩⟩
  · rw [(trail_late h (Nat.le_max_right _ _)).2.1] at hm'
    cases hm'
  · simp only [trail] at hm
    cases ha : (trail w₀ l i).act (l[i]?.getD (.start .reimbursement 9)) with
    | none => rw [ha] at hm; exact hm
    | some w' =>
      rw [ha] at hm
      refine act_calm ha ?_ hm
      cases hx : l[i]? with
      | none => rfl
      | some x =>
        have := List.all_eq_true.1 hk x (List.mem_of_getElem? hx)
        simpa using this
  · obtain ⟨pre, post, id, o, _, _, _, ht, _⟩ := hA
    by_cases hi : i < p
    · exact ⟨p, hi, fire⟩
    · exfalso
      by_cases hil : i < l.length
      · have h1 := List.all_eq_true.1 he i (List.mem_range.2 hil)
        simp only [hi, decide_false, Bool.false_or, World.noExt] at h1
        have h2 := List.all_eq_true.1 h1 ⟨id, .ext t, o⟩ (by rw [ht]; simp)
        cases h2
      · rw [(trail_late h (Nat.le_of_not_lt hil)).2.1] at ht
        simp at ht
  · by_cases hj : j < p
    · exact ⟨p, hj, fire⟩
    · exfalso
      obtain ⟨pre, post, _, _, ht, _⟩ := hd
      obtain ⟨pre', post', _, _, ht', _⟩ := hd'
      rcases hf with hf | hf
      · have acc : ∀ i, (trail w₀ l i).accepting := by
          intro i
          induction i with
          | zero => intro p hp; rw [show trail w₀ l 0 = w₀ from rfl, h0] at hp; cases hp
          | succ i ih =>
            simp only [trail]
            cases ha : (trail w₀ l i).act (l[i]?.getD (.start .reimbursement 9)) with
            | none => exact ih
            | some w' =>
              refine act_accepting ha ?_ ih
              cases hx : l[i]? with
              | none => rfl
              | some x =>
                have := List.all_eq_true.1 hf x (List.mem_of_getElem? hx)
                simpa using this
        obtain ⟨b, rfl⟩ := acc i ⟨id, .ledger t, some a⟩ (by rw [ht]; simp) a rfl
        cases t <;> cases hc
      · by_cases hjl : j < l.length
        · have h1 := List.all_eq_true.1 hf j (List.mem_range.2 hjl)
          simp only [hj, decide_false, Bool.false_or, List.isEmpty_iff] at h1
          rw [h1] at ht'
          simp at ht'
        · rw [(trail_late h (Nat.le_of_not_lt hjl)).2.1] at ht'
          simp at ht'
  · refine trail_starts (now := 9) trivial ?_
    rw [List.getElem?_eq_none (Nat.le_max_right _ _)]
    rfl

end Spec
end EvmMinter
