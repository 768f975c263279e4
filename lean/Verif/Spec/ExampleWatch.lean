import Verif.Spec.ExampleTrail
import Verif.Spec.Watch
/-!
# Playing endless executions in which the chain is watched

`vigil w₀ l n` carries out the actions `l` from `w₀`; then the timers for scraping and for reimbursements fire in turns for ever, and the
latest block is always reported to be `n`. Used for examples only.
-/

namespace EvmMinter
namespace Spec

/-- The action at time `i`. -/
def vigilAction (l : List Action) (n : BlockNumber) (i : Nat) : Action :=
  l[i]?.getD (if (i - l.length) % 3 = 0 then .start .scrape 9
    else if (i - l.length) % 3 = 1 then .answer 0 (.block (some n)) 9 else .start .reimbursement 9)

/-- The answer that is given. -/
def Action.given : Action → ExtAnswer
  | .answer _ a _ => a
  | _ => .sent

variable [Keccak]

def vigil (w₀ : World) (l : List Action) (n : BlockNumber) : Nat → World
  | 0 => w₀
  | i + 1 => ((vigil w₀ l n i).act (vigilAction l n i)).getD (vigil w₀ l n i)

theorem vigil_endless {w₀ : World} (h : Reachable w₀) (l : List Action) (n : BlockNumber) : Endless (vigil w₀ l n) := by
  refine ⟨h, fun i => ?_⟩
  simp only [vigil]
  cases ha : (vigil w₀ l n i).act (vigilAction l n i) with
  | none => exact .inl rfl
  | some w' => exact .inr (World.act_step ha)

theorem vigil_starts {w₀ : World} {l : List Action} {n : BlockNumber} {i : Nat} {msg : Message} {now : Nat} (ht : msg.Typed)
    (hl : vigilAction l n i = .start msg now) : Starts (vigil w₀ l n i) (vigil w₀ l n (i + 1)) msg := by
  obtain ⟨w', h1, h2⟩ := start_starts (w := vigil w₀ l n i) (now := now) ht
  simp only [vigil, hl, h1, Option.getD_some]
  exact h2

/-- Nothing is left to do, also for the scraper if the latest block is `n`. -/
def World.rests (w : World) (n : BlockNumber) : Bool :=
  w.idle && decide (w.mem.lastObserved = some n) && decide (w.mem.lastObservedTime = some 9) && decide (n < 2 ^ 256) &&
    (match w.mem.m.st.startQuery n maxBlockSpread with | .ok none => true | _ => false) && decide (w.mem.m.st.evmNetwork.margin = 0)

theorem rests_scrape {w : World} {n : BlockNumber} (h : w.rests n = true) :
    ∃ w', w.act (.start .scrape 9) = some w' ∧ w'.mem = { w.mem with active := [.scrapLogs] } ∧
      w'.tasks = [⟨w.nextId, .ext (.scrape (.observing 0)), none⟩] ∧ w'.blocks = w.blocks := by
  obtain ⟨⟨id, m, lo, lt, active, ps⟩, blocks, tasks, nextId, started, finished, trace⟩ := w
  simp only [World.rests, World.idle, Bool.and_eq_true, List.isEmpty_iff, decide_eq_true_eq] at h
  obtain ⟨⟨⟨⟨⟨⟨⟨h1, h2⟩, h3⟩, h4⟩, h5⟩, h6⟩, h7⟩, h8⟩ := h
  subst h1 h2 h4 h5
  exact ⟨_, rfl, rfl, rfl, rfl⟩

theorem rests_answer {w : World} {c : Mem} {n : BlockNumber} {id : Nat} (hn : n < 2 ^ 256) (h1 : c.active = []) (h2 : c.lastObserved = some n)
    (h3 : (match c.m.st.startQuery n maxBlockSpread with | .ok none => true | _ => false) = true) (h4 : c.m.st.evmNetwork.margin = 0)
    (hm : w.mem = { c with active := [.scrapLogs] }) (ht : w.tasks = [⟨id, .ext (.scrape (.observing 0)), none⟩]) :
    ∃ w', w.act (.answer 0 (.block (some n)) 9) = some w' ∧ w'.mem = c ∧ w'.tasks = [] ∧ w'.blocks = w.blocks := by
  obtain ⟨cid, m, lo, lt, active, ps⟩ := c
  simp only at h1 h2 h3 h4
  subst h1 h2
  have hq : m.st.startQuery n maxBlockSpread = .ok none := by
    split at h3
    · assumption
    · cases h3
  have hr : ExtTask.resume w.mem 9 (.scrape (.observing 0)) (.block (some n)) =
      some (.ok ((⟨cid, m, some n, lt, [], ps⟩ : Mem), .finish none)) := by
    rw [hm]
    simp only [ExtTask.resume, Scraper.onBlock, Scraper.observe, Mem.scraper, h4, if_true]
    rw [hq]
    rfl
  refine ⟨w.advance [] [] id (⟨cid, m, some n, lt, [], ps⟩ : Mem) (.finish none), ?_, rfl, rfl, rfl⟩
  simp only [World.act, ht, List.getElem?_cons_zero]
  rw [if_pos (show (ExtAnswer.block (some n)).Typed from hn), hr]
  rfl

variable {w₀ : World} {l : List Action} {n : BlockNumber}

theorem vigil_round (h : (vigil w₀ l n l.length).rests n = true) (k : Nat) :
    (vigil w₀ l n (l.length + 3 * k)).mem = (vigil w₀ l n l.length).mem ∧ (vigil w₀ l n (l.length + 3 * k)).tasks = [] ∧
    (vigil w₀ l n (l.length + 3 * k + 1)).mem = { (vigil w₀ l n l.length).mem with active := [.scrapLogs] } ∧
    (∃ id, (vigil w₀ l n (l.length + 3 * k + 1)).tasks = [⟨id, .ext (.scrape (.observing 0)), none⟩]) ∧
    ((vigil w₀ l n (l.length + 3 * k + 1)).act (.answer 0 (.block (some n)) 9)).isSome = true ∧
    (vigil w₀ l n (l.length + 3 * k + 2)).mem = (vigil w₀ l n l.length).mem ∧ (vigil w₀ l n (l.length + 3 * k + 2)).tasks = [] := by
  have h' := h
  simp only [World.rests, World.idle, Bool.and_eq_true, List.isEmpty_iff, decide_eq_true_eq] at h'
  obtain ⟨⟨⟨⟨⟨⟨⟨r1, r2⟩, r3⟩, r4⟩, r5⟩, r6⟩, r7⟩, r8⟩ := h'
  have act0 : ∀ k, vigilAction l n (l.length + 3 * k) = .start .scrape 9 := fun k => by
    unfold vigilAction
    rw [List.getElem?_eq_none (by omega), Option.getD_none, if_pos (by omega)]
  have act1 : ∀ k, vigilAction l n (l.length + 3 * k + 1) = .answer 0 (.block (some n)) 9 := fun k => by
    unfold vigilAction
    rw [List.getElem?_eq_none (by omega), Option.getD_none, if_neg (by omega), if_pos (by omega)]
  have act2 : ∀ k, vigilAction l n (l.length + 3 * k + 2) = .start .reimbursement 9 := fun k => by
    unfold vigilAction
    rw [List.getElem?_eq_none (by omega), Option.getD_none, if_neg (by omega), if_neg (by omega)]
  suffices base : (vigil w₀ l n (l.length + 3 * k)).mem = (vigil w₀ l n l.length).mem ∧ (vigil w₀ l n (l.length + 3 * k)).tasks = [] by
    have hrest : (vigil w₀ l n (l.length + 3 * k)).rests n = true := by
      simp only [World.rests, World.idle, base.1, base.2]
      simp only [World.rests, World.idle, r1] at h
      exact h
    obtain ⟨w1, a1, a2, a3, -⟩ := rests_scrape hrest
    have e1 : vigil w₀ l n (l.length + 3 * k + 1) = w1 := by simp only [vigil, act0, a1, Option.getD_some]
    rw [base.1] at a2
    obtain ⟨w2, b1, b2, b3, -⟩ := rests_answer (w := w1) (c := (vigil w₀ l n l.length).mem) r6 r2 r4 r7 r8 a2 a3
    have e2 : vigil w₀ l n (l.length + 3 * k + 2) = w2 := by
      show ((vigil w₀ l n (l.length + 3 * k + 1)).act (vigilAction l n (l.length + 3 * k + 1))).getD _ = w2
      rw [e1, act1, b1, Option.getD_some]
    refine ⟨base.1, base.2, by rw [e1]; exact a2, ⟨_, by rw [e1]; exact a3⟩, by rw [e1, b1]; rfl, by rw [e2]; exact b2, by rw [e2]; exact b3⟩
  induction k with
  | zero => exact ⟨rfl, r1⟩
  | succ k ih =>
    have hrest : (vigil w₀ l n (l.length + 3 * k)).rests n = true := by
      simp only [World.rests, World.idle, ih.1, ih.2]
      simp only [World.rests, World.idle, r1] at h
      exact h
    obtain ⟨w1, a1, a2, a3, -⟩ := rests_scrape hrest
    have e1 : vigil w₀ l n (l.length + 3 * k + 1) = w1 := by simp only [vigil, act0, a1, Option.getD_some]
    rw [ih.1] at a2
    obtain ⟨w2, b1, b2, b3, -⟩ := rests_answer (w := w1) (c := (vigil w₀ l n l.length).mem) r6 r2 r4 r7 r8 a2 a3
    have e2 : vigil w₀ l n (l.length + 3 * k + 2) = w2 := by
      show ((vigil w₀ l n (l.length + 3 * k + 1)).act (vigilAction l n (l.length + 3 * k + 1))).getD _ = w2
      rw [e1, act1, b1, Option.getD_some]
    have hidle : w2.idle = true := by
      simp only [World.idle, b2, b3, r2, r3, Bool.and_eq_true, List.isEmpty_iff, and_self]
    have e3 : vigil w₀ l n (l.length + 3 * (k + 1)) = (w2.begin .reimbursement).advance w2.tasks [] w2.nextId w2.mem (.finish none) := by
      show ((vigil w₀ l n (l.length + 3 * k + 2)).act (vigilAction l n (l.length + 3 * k + 2))).getD _ = _
      rw [e2, act2, idle_start hidle, Option.getD_some]
    rw [e3]
    exact ⟨b2, by simp [World.advance, World.begin, Next.pending, b3]⟩

/-- After the actions of the list. -/
theorem vigil_late (h : (vigil w₀ l n l.length).rests n = true) {i : Nat} (hi : l.length ≤ i) :
    (vigil w₀ l n i).mem.m = (vigil w₀ l n l.length).mem.m ∧ .mint ∉ (vigil w₀ l n i).mem.active ∧
      ((vigil w₀ l n i).tasks = [] ∨ ∃ id, (vigil w₀ l n i).tasks = [⟨id, .ext (.scrape (.observing 0)), none⟩] ∧
        vigilAction l n i = .answer 0 (.block (some n)) 9 ∧ ((vigil w₀ l n i).act (vigilAction l n i)).isSome = true) := by
  have r2 : (vigil w₀ l n l.length).mem.active = [] := by
    simp only [World.rests, World.idle, Bool.and_eq_true, List.isEmpty_iff] at h
    exact h.1.1.1.1.1.1.2
  obtain ⟨d, rfl⟩ := Nat.exists_eq_add_of_le hi
  obtain ⟨h1, h2, h3, ⟨id, h4⟩, h5, h6, h7⟩ := vigil_round h (d / 3)
  have cs : d = 3 * (d / 3) ∨ d = 3 * (d / 3) + 1 ∨ d = 3 * (d / 3) + 2 := by omega
  generalize hk : d / 3 = k at *
  rcases cs with rfl | rfl | rfl
  · rw [h1, h2]; exact ⟨rfl, by simp [r2], .inl rfl⟩
  · have ha : vigilAction l n (l.length + (3 * k + 1)) = .answer 0 (.block (some n)) 9 := by
      unfold vigilAction
      rw [List.getElem?_eq_none (by omega), Option.getD_none, if_neg (by omega), if_pos (by omega)]
    rw [ha, ← Nat.add_assoc, h3, h4]; exact ⟨rfl, by simp, .inr ⟨id, rfl, rfl, h5⟩⟩
  · rw [← Nat.add_assoc, h6, h7]; exact ⟨rfl, by simp [r2], .inl rfl⟩

/-- What goes on at a time: at most one task is there. A ledger task was not refused, and a scraping task is answered. -/
def World.orderly (w : World) (x : Action) : Bool :=
  match w.tasks with
  | [] => true
  | [⟨_, .ledger _, none⟩] => true
  | [⟨_, .ledger _, some (.block _)⟩] => true
  | [⟨_, .ext (.scrape _), _⟩] => (match x with | .answer 0 _ _ => true | _ => false) && (w.act x).isSome
  | _ => false

def World.querying (w : World) : Bool :=
  match w.tasks with
  | [⟨_, .ext (.scrape (.querying _)), _⟩] => true
  | _ => false

theorem vigil_orderly (h : (vigil w₀ l n l.length).rests n = true)
    (ho : (List.range l.length).all (fun i => (vigil w₀ l n i).orderly (vigilAction l n i)) = true) (i : Nat) :
    (vigil w₀ l n i).orderly (vigilAction l n i) = true := by
  by_cases hi : i < l.length
  · exact List.all_eq_true.1 ho i (List.mem_range.2 hi)
  · obtain ⟨-, -, ht | ⟨id, ht, ha, hs⟩⟩ := vigil_late h (Nat.le_of_not_lt hi)
    · simp [World.orderly, ht]
    · simp only [World.orderly, ht, hs, Bool.and_true]
      rw [ha]
      rfl

/-- The answer received is the one given. -/
theorem vigil_told {i : Nat} (ho : (vigil w₀ l n i).orderly (vigilAction l n i) = true) {t : ScrapeTask} {a : ExtAnswer}
    (ha : Receives (vigil w₀ l n i) (vigil w₀ l n (i + 1)) (.scrape t) a) :
    (∃ id o, (vigil w₀ l n i).tasks = [⟨id, .ext (.scrape t), o⟩]) ∧
      Receives (vigil w₀ l n i) (vigil w₀ l n (i + 1)) (.scrape t) (vigilAction l n i).given := by
  obtain ⟨pre, post, id, o, now, ht, -⟩ := ha
  unfold World.orderly at ho
  split at ho
  · rename_i h; rw [h] at ht; simp at ht
  · rename_i h; rw [h] at ht
    cases pre with
    | nil => simp at ht
    | cons _ p => simp at ht
  · rename_i h; rw [h] at ht
    cases pre with
    | nil => simp at ht
    | cons _ p => simp at ht
  · rename_i id' t' o' h
    have hh : (⟨id', .ext (.scrape t'), o'⟩ : Pending) = ⟨id, .ext (.scrape t), o⟩ := by
      rw [h] at ht
      cases pre with
      | nil => simp only [List.nil_append, List.cons.injEq] at ht; exact ht.1
      | cons _ p => simp at ht
    cases hh
    refine ⟨⟨id, o, h⟩, ?_⟩
    simp only [Bool.and_eq_true] at ho
    obtain ⟨h1, h2⟩ := ho
    split at h1
    · rename_i a' now' hx
      obtain ⟨w', hw⟩ := Option.isSome_iff_exists.1 h2
      show Receives _ (((vigil w₀ l n i).act (vigilAction l n i)).getD _) _ _
      rw [hw, Option.getD_some, hx]
      rw [hx] at hw
      simp only [World.act, h, List.getElem?_cons_zero] at hw
      split at hw
      · rename_i hty
        split at hw
        · rename_i c m hr
          cases hw
          exact ⟨[], [], id, o, now', h, hty, .inl ⟨c, m, hr, rfl⟩⟩
        · rename_i e hr
          split at hw
          · rename_i c hc
            cases hw
            exact ⟨[], [], id, o, now', h, hty, .inr ⟨e, c, hr, rfl⟩⟩
          · cases hw
        · cases hw
      · cases hw
    · cases h1
  · cases ho

end Spec
end EvmMinter
