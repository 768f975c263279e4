import Verif.Model.EventCbor
import Verif.Model.State
/-!
# The event log in stable memory (storage.rs)

The stable log (`ic_stable_structures::Log`) is a list of byte strings: `append` adds one, iteration returns them in order.
That it is one is trusted, so is that stable memory is kept over upgrades.
-/

namespace EvmMinter

/-- The contents of `EVENTS` (storage.rs:58-66). -/
abbrev StableLog := List Bytes

/-- `record_event` (storage.rs:83-92). `now` is `ic_cdk::api::time`, 64 bits of nanoseconds. -/
def StableLog.record (nil : Bool) (l : StableLog) (now : Nat) (e : Event) : StableLog := l ++ [Cbor.event nil now e]

/-- `with_event_iter` (storage.rs:99-104), reading all: `from_bytes` panics on bytes it can't read (storage.rs:30-33). -/
def StableLog.events : StableLog → Res (List (Nat × Event))
  | [] => .ok []
  | b :: l => do
    let e ← match Cbor.decodeEvent b with
      | .ok e => Except.ok e
      | .error _ => .error "failed to decode event bytes"
    let es ← StableLog.events l
    return e :: es

/-- `replay_events` (state/audit.rs:168-170), as `post_upgrade` runs it. -/
def StableLog.replay [Keccak] (l : StableLog) : Res State := do
  let es ← l.events
  EvmMinter.replay (es.map (·.2))

end EvmMinter
