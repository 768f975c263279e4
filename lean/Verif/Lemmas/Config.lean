import Verif.Lemmas.Track
import Verif.Lemmas.Frame
/-!
# Bounds of the configuration
-/

namespace EvmMinter

/-- The configured amounts are 256-bit words, fees are not zero, and the minimum withdrawal covers the transfer fee. -/
structure UpgradableConfig.Valid (c : UpgradableConfig) : Prop where
  transferFee : c.nativeLedgerTransferFee < U256
  minimum : c.nativeMinimumWithdrawalAmount < U256
  minimum_pos : 0 < c.nativeMinimumWithdrawalAmount
  minimum_fee : c.nativeLedgerTransferFee ≤ c.nativeMinimumWithdrawalAmount
  deposit : ∀ f, c.depositNativeFee = some f → 0 < f ∧ f < U256
  withdrawal : ∀ f, c.withdrawalNativeFee = some f → 0 < f ∧ f < U256

theorem State.feeOption_some {n f : Wei} (h : State.feeOption n = some f) : n = f ∧ 0 < f := by
  unfold State.feeOption at h
  split at h
  · cases h
  · cases h
    exact ⟨rfl, Nat.pos_of_ne_zero ‹_›⟩

theorem State.validateConfig_minimum {s : State} (h : s.validateConfig = .ok ()) :
    0 < s.nativeMinimumWithdrawalAmount ∧ s.nativeLedgerTransferFee ≤ s.nativeMinimumWithdrawalAmount := by
  unfold State.validateConfig at h
  split at h
  · cases h
  · split at h
    · cases h
    · split at h
      · cases h
      · split at h
        · cases h
        · split at h
          · cases h
          · exact ⟨Nat.pos_of_ne_zero ‹_›, Nat.le_of_not_lt ‹_›⟩

theorem ofInit_valid {a : InitArg} {s : State} (h : State.ofInit a = .ok s) : s.upgradable.Valid := by
  simp only [State.ofInit, bind_ok', pure_ok', orErr_ok, u256OfNat_some] at h
  obtain ⟨n, ⟨rfl, hn⟩, w, ⟨rfl, hw⟩, f, ⟨rfl, hf⟩, hp, hhp, l, ⟨rfl, hl⟩, p, ⟨rfl, hpp⟩, fs, hfs, d, ⟨rfl, hd⟩,
    wf, ⟨rfl, hwf⟩, _, hv, rfl⟩ := h
  obtain ⟨v1, v2⟩ := State.validateConfig_minimum hv
  refine ⟨hf, hw, v1, v2, ?_, ?_⟩
  · intro f hf; obtain ⟨rfl, hp⟩ := State.feeOption_some hf; exact ⟨hp, hd⟩
  · intro f hf; obtain ⟨rfl, hp⟩ := State.feeOption_some hf; exact ⟨hp, hwf⟩

theorem upgrade_valid {s s' : State} {a : UpgradeArg} (h : s.upgrade a = .ok s') (hv : s.upgradable.Valid) : s'.upgradable.Valid := by
  obtain ⟨helper, _, rfl, hval, _, b2, b3, _, b5, b6, _⟩ := upgrade_ok h
  obtain ⟨v1, v2⟩ := State.validateConfig_minimum hval
  have num : ∀ {o : Option Nat} {x : Nat}, (∀ n, o = some n → n < U256) → x < U256 → o.getD x < U256 := by
    intro o x h1 h2
    cases o with
    | none => exact h2
    | some n => exact h1 n rfl
  have fee : ∀ {o : Option Nat} {x : Option Wei}, (∀ n, o = some n → n < U256) → (∀ f, x = some f → 0 < f ∧ f < U256) →
      ∀ f, feeOr x o = some f → 0 < f ∧ f < U256 := by
    intro o x h1 h2 f hf
    cases o with
    | none => exact h2 f hf
    | some n =>
      obtain ⟨rfl, hp⟩ := State.feeOption_some hf
      exact ⟨hp, h1 n rfl⟩
  exact ⟨num b3 hv.transferFee, num b2 hv.minimum, v1, v2, fee b5 hv.deposit, fee b6 hv.withdrawal⟩

variable [Keccak]

theorem config_valid {log : List Event} {s : State} (h : Tracks log s) : s.upgradable.Valid := by
  refine Tracks.induct (P := fun s => s.upgradable.Valid) (fun _ _ _ h => h) (fun _ _ h => ofInit_valid h) ?_ h
  intro s e s' hv ha
  cases e with
  | upgrade a =>
    simp only [applyEvent] at ha
    split at ha
    · rename_i h1
      cases ha
      exact upgrade_valid h1 hv
    · cases ha
  | _ => rw [(applyEvent_frame ha).2.1 (by intro a h; cases h)]; exact hv

end EvmMinter
