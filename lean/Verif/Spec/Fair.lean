import Verif.Model.Timers
import Verif.Spec.World
/-!
# Endless executions

`Endless ρ`: the worlds `ρ 0, ρ 1, …` form an execution; at some times nothing happens. `Steady ρ N`: from time `N` on
* calls of the minting and reimbursing tasks return and their callbacks run (the Internet Computer guarantees an answer to every
  call); ledgers may still refuse or reject them;
* no callback is cut off for lack of resources;
* a timer that was set fires, and so do the interval timers. As an upgrade deletes the timers, this says in particular that no
  upgrade comes between.
-/

namespace EvmMinter
namespace Spec
variable [Keccak]

structure Endless (ρ : Nat → World) : Prop where
  init : Reachable (ρ 0)
  step : ∀ i, ρ (i + 1) = ρ i ∨ Step (ρ i) (ρ (i + 1))

/-- A timer fires or an endpoint is called. -/
def Starts (w w' : World) (msg : Message) : Prop :=
  ∃ now, (∃ c n, msg.run w.mem now = .ok (c, n) ∧ w' = (w.begin msg).advance w.tasks [] w.nextId c n) ∨
    (∃ e, msg.run w.mem now = .error e ∧ w' = (w.begin msg).drop w.tasks [] w.nextId w.mem .trapped)

/-- The callback of task `t` of message `id` runs with the answer `a` of a ledger, and the message goes on with `n`. -/
def Delivers (w w' : World) (id : Nat) (t : LedgerTask) (a : LedgerAnswer) (n : Next) : Prop :=
  ∃ pre post now c, w.tasks = pre ++ ⟨id, .ledger t, some a⟩ :: post ∧ t.resume w.mem a now = .ok (c, n) ∧ w' = w.advance pre post id c n

/-- The callback of task `t` runs with the answer `a` of another canister. -/
def Replies (w w' : World) (t : ExtTask) (a : ExtAnswer) : Prop :=
  ∃ pre post id o now c n, w.tasks = pre ++ ⟨id, .ext t, o⟩ :: post ∧ t.resume w.mem now a = some (.ok (c, n)) ∧
    w' = w.advance pre post id c n

/-- A task that mints for deposits or reimburses. -/
def _root_.EvmMinter.LedgerTask.pays : LedgerTask → Bool
  | .mintUser _ _ _ _ _ _ | .mintFee _ _ _ _ _ _ _ | .reimburse _ _ _ _ => true
  | _ => false

structure Steady (ρ : Nat → World) (N : Nat) : Prop where
  /-- Calls return, and their callbacks run. -/
  returns : ∀ i, N ≤ i → ∀ id t o, t.pays = true → ⟨id, .ledger t, o⟩ ∈ (ρ i).tasks →
    ∃ j, i ≤ j ∧ ∀ o', ⟨id, .ledger t, o'⟩ ∉ (ρ j).tasks
  /-- No callback is made to trap. -/
  calm : ∀ i, N ≤ i → ∀ id, (id, .killed) ∈ (ρ (i + 1)).finished → (id, .killed) ∈ (ρ i).finished
  /-- The timer set when logs were registered fires. -/
  registered : ∀ i, N ≤ i → ∀ t a, Replies (ρ i) (ρ (i + 1)) t a → t.setsMintTimer (ρ (i + 1)).mem a = true →
    ∃ j, i < j ∧ Starts (ρ j) (ρ (j + 1)) .mint
  /-- The timer set at the end of a mint with errors fires. -/
  retried : ∀ i j, N ≤ j → i ≤ j → ∀ id t a n t' a' r, Delivers (ρ i) (ρ (i + 1)) id t a n → t.countsError a = true →
    Delivers (ρ j) (ρ (j + 1)) id t' a' (.finish r) → ∃ k, j < k ∧ Starts (ρ k) (ρ (k + 1)) .mint
  /-- The interval timer for reimbursements fires again and again. -/
  interval : ∀ i, ∃ j, i ≤ j ∧ Starts (ρ j) (ρ (j + 1)) .reimbursement

/-- From time `M` on the ledgers execute the mints for deposit `d`. -/
def MintsFrom (ρ : Nat → World) (M : Nat) (d : Deposit) : Prop :=
  ∀ i, M ≤ i → ∀ id env sym l amount rest a, ⟨id, .ledger (.mintUser env d sym l amount rest), some a⟩ ∈ (ρ i).tasks →
    ∃ b, a = .block b

/-- From time `M` on the ledgers execute the reimbursement `x`. -/
def RepaysFrom (ρ : Nat → World) (M : Nat) (x : ReimbIndex) : Prop :=
  ∀ i, M ≤ i → ∀ id r l rest a, ⟨id, .ledger (.reimburse x r l rest), some a⟩ ∈ (ρ i).tasks → ∃ b, a = .block b

/-- Logs come in. -/
def LogsCome (ρ : Nat → World) (i : Nat) : Prop :=
  ∃ q l, Replies (ρ i) (ρ (i + 1)) (.scrape (.querying q)) (.logs (.logs l))

/-- A run of the mint timer has `d` before it. -/
def World.Covers (w : World) (d : Deposit) : Prop :=
  ∃ id env x sym l amount rest o, ⟨id, .ledger (.mintUser env x sym l amount rest), o⟩ ∈ w.tasks ∧ d ∈ x :: rest

end Spec
end EvmMinter
