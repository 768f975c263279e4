import Verif.Spec.ExampleWorld
import Verif.Spec.History
/-!
# Concrete executions with what the scraper saw

Used for examples only.
-/

namespace EvmMinter
namespace Spec
variable [Keccak]

/-- Carry out an action, and tell what the scraper saw. Some actions are not supported while scraping is in progress. -/
def World.watch (w : World) : Action → Option (World × List Obs)
  | .start .scrape now =>
    match Message.run w.mem now .scrape with
    | .ok (c, .await t) => some ((w.begin .scrape).advance w.tasks [] w.nextId c (.await t), [.started now])
    | _ => none
  | .answer k (.block b) now =>
    match w.tasks[k]? with
    | some ⟨id, .ext (.scrape (.observing n)), _⟩ =>
      if (ExtAnswer.block b).Typed then
        match ExtTask.resume w.mem now (.scrape (.observing n)) (.block b) with
        | some (.ok (c, n)) => some (w.advance (w.tasks.take k) (w.tasks.drop (k + 1)) id c n, [.latest b])
        | _ => none
      else none
    | _ => none
  | .answer k (.logs a) now =>
    match w.tasks[k]? with
    | some ⟨id, .ext (.scrape (.querying q)), _⟩ =>
      match ExtTask.resume w.mem now (.scrape (.querying q)) (.logs a) with
      | some (.ok (c, n)) => some (w.advance (w.tasks.take k) (w.tasks.drop (k + 1)) id c n, [.answered q.request a])
      | _ => none
    | _ => none
  | x =>
    match scrapeTask w.tasks, w.act x with
    | none, some w' => some (w', [])
    | _, _ => none

theorem scrapeTask_some {pre post : List Pending} {id : Nat} {t : ScrapeTask} {o : Option LedgerAnswer} :
    scrapeTask (pre ++ ⟨id, .ext (.scrape t), o⟩ :: post) ≠ none := by
  unfold scrapeTask
  intro h
  rw [List.findSome?_eq_none_iff] at h
  have := h ⟨id, .ext (.scrape t), o⟩ (by simp)
  simp at this

theorem not_observes {w w' : World} (ht : scrapeTask w.tasks = none)
    (hs : w'.started = w.started ∨ ∃ id msg, msg ≠ .scrape ∧ w'.started = w.started ++ [(id, msg)]) (o : Obs) : ¬ Observes w w' o := by
  intro h
  cases h with
  | started now c t hr =>
    have e : ((w.begin .scrape).advance w.tasks [] w.nextId c (.await t)).started = w.started ++ [(w.nextId, .scrape)] := rfl
    rw [e] at hs
    rcases hs with hs | ⟨id, msg, h1, hs⟩
    · simp at hs
    · simp only [List.append_cancel_left_eq, List.cons.injEq, Prod.mk.injEq, and_true] at hs
      exact h1 hs.2.symm
  | latest pre post id k o b now c n h1 _ _ => rw [h1] at ht; exact scrapeTask_some ht
  | answered pre post id q o a now c n h1 _ => rw [h1] at ht; exact scrapeTask_some ht

theorem World.act_started {w w' : World} {x : Action} (h : w.act x = some w') (hx : ∀ now, x ≠ .start .scrape now) :
    w'.started = w.started ∨ ∃ id msg, msg ≠ .scrape ∧ w'.started = w.started ++ [(id, msg)] := by
  cases x <;> simp only [World.act] at h
  case start msg now =>
    refine .inr ⟨w.nextId, msg, fun hm => hx now (by rw [hm]), ?_⟩
    split at h
    · split at h <;> cases h <;> rfl
    · cases h
  all_goals left
  all_goals repeat' split at h
  all_goals cases h
  all_goals rfl

theorem World.watch_history {w₀ w w' : World} {h l : List Obs} {x : Action} (hh : History w₀ w h) (hw : w.watch x = some (w', l)) :
    History w₀ w' (h ++ l) := by
  unfold World.watch at hw
  split at hw
  · split at hw
    · rename_i hr
      cases hw
      exact .scraper _ _ _ _ hh (.started w _ _ _ hr)
    · cases hw
  · split at hw
    · rename_i hk
      split at hw
      · rename_i hty
        split at hw
        · rename_i hr
          cases hw
          exact .scraper _ _ _ _ hh (.latest w _ _ _ _ _ _ _ _ _ (split_at hk) hty hr)
        · cases hw
      · cases hw
    · cases hw
  · split at hw
    · rename_i hk
      split at hw
      · rename_i hr
        cases hw
        exact .scraper _ _ _ _ hh (.answered w _ _ _ _ _ _ _ _ _ (split_at hk) hr)
      · cases hw
    · cases hw
  · rename_i hne _ _
    split at hw
    · rename_i ht hact
      cases hw
      rw [List.append_nil]
      exact .other _ _ _ hh (World.act_step hact) (not_observes ht (World.act_started hact fun now hx => hne now hx))
    · cases hw

/-- Carry out actions in order. -/
def World.watchAll (w : World) (h : List Obs) : List Action → Option (World × List Obs)
  | [] => some (w, h)
  | x :: t => (w.watch x).bind fun r => r.1.watchAll (h ++ r.2) t

theorem World.watchAll_history {l : List Action} {w₀ : World} : ∀ {w w' : World} {h h' : List Obs}, History w₀ w h →
    w.watchAll h l = some (w', h') → History w₀ w' h' := by
  induction l with
  | nil => intro w w' h h' hh hp; cases hp; exact hh
  | cons x t ih =>
    intro w w' h h' hh hp
    simp only [World.watchAll, Option.bind_eq_some_iff] at hp
    obtain ⟨⟨w1, l⟩, h1, h2⟩ := hp
    exact ih (World.watch_history hh h1) h2

end Spec
end EvmMinter
