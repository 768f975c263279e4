import Verif.Model.Swap
import Verif.Props.C67

/-!
# C68: the early deposit check

`check_new_deposits` is meant for the swap canister. Nobody else gets past its checks, and one who does has no more effect than
the timer. But no code ever stores the id of a swap canister, so that in every execution the endpoint traps for everybody.
-/

namespace EvmMinter
open Spec

section
variable [Keccak]

/-- **C68**, as far as it holds: a call that does not trap was made by the swap canister, and does what the scraping timer does at that
time: nothing if the logs are being scraped already, else it starts scraping.

Not proved, since false (`C68_never`): that the swap canister can start the check. -/
theorem C68_only_swap_partial {c c' : Mem} {caller : Principal} {now : Nat} {n : Next}
    (h : c.checkNewDeposits caller now = .ok (c', n)) :
    c.m.st.swapCanisterId = some caller ∧ Message.scrape.run c now = .ok (c', n) ∧ c'.m = c.m ∧
    (TaskType.scrapLogs ∈ c.active ∧ c' = c ∧ n = .finish none ∨
     TaskType.scrapLogs ∉ c.active ∧ n = .await (.ext (.scrape (.observing 0)))) := by
  unfold Mem.checkNewDeposits at h
  split at h
  · cases h
  · next swap hs =>
    split at h
    · cases h
    · next hne =>
      have : swap = caller := by simpa using hne
      refine ⟨by rw [hs, this], h, ?_⟩
      unfold Message.run Mem.acquire at h
      dsimp only at h
      split at h
      · next hq =>
        cases h
        split at hq
        · next hm => exact ⟨rfl, .inl ⟨hm, rfl, rfl⟩⟩
        · cases hq
      · next c₁ hq =>
        cases h
        split at hq
        · cases hq
        · next hm => cases hq; exact ⟨rfl, .inr ⟨hm, rfl⟩⟩

/-- The id of a swap canister is never stored. -/
theorem reachable_noSwap {w : World} (h : Reachable w) : w.mem.m.st.swapCanisterId = none := by
  induction h with
  | init id a s blocks h1 h2 =>
    change s.swapCanisterId = none
    simp only [State.ofInit, bind_ok', pure_ok', orErr_ok, u256OfNat_some] at h1
    obtain ⟨n, ⟨rfl, hn⟩, w, ⟨rfl, hw⟩, f, ⟨rfl, hf⟩, hp, hhp, l, ⟨rfl, hl⟩, p, ⟨rfl, hpp⟩, fs, hfs, d, ⟨rfl, hd⟩,
      wf, ⟨rfl, hwf⟩, _, hv, rfl⟩ := h1
    rfl
  | step w w' h0 hs ih => exact (congrArg FixedConfig.swapCanisterId (Step.grows h0 hs).fixed).trans ih

/-- **C68**, the defect: in every execution the endpoint traps, whoever calls it. -/
theorem C68_never {w : World} (h : Reachable w) (caller : Principal) (now : Nat) :
    ∃ e, w.mem.checkNewDeposits caller now = .error e := by
  unfold Mem.checkNewDeposits
  rw [reachable_noSwap h]
  exact ⟨_, rfl⟩

end

namespace Example

/-- The memory right after the installation, with a swap canister configured by hand. -/
def withSwap : Res Mem :=
  match State.ofInit initArg with
  | .ok s => .ok ⟨minter, ⟨{ s with swapCanisterId := some alice }, [.init initArg]⟩, none, none, [], []⟩
  | .error _ => .error "init"

/-- The call started scraping. -/
def scrapes : Res (Mem × Next) → Bool
  | .ok (c, .await (.ext (.scrape (.observing 0)))) => c.active == [.scrapLogs]
  | _ => false

/-- The call ended at once. -/
def ends : Res (Mem × Next) → Bool
  | .ok (_, .finish none) => true
  | _ => false

/-- **C68**, example: if there were a swap canister it could start scraping once, and nobody else could. -/
theorem C68_example :
    scrapes (withSwap >>= fun c => c.checkNewDeposits alice 5) = true ∧
    ends (withSwap >>= fun c => c.checkNewDeposits alice 5 >>= fun x => x.1.checkNewDeposits alice 6) = true ∧
    (withSwap >>= fun c => c.checkNewDeposits bob 5).toOption.isNone = true ∧ withSwap.toOption.isSome = true := by
  decide +kernel

end Example
end EvmMinter
