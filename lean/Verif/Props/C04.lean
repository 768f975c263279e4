import Verif.Lemmas.Answers
import Verif.Props.C01
import Verif.Spec.ExampleWorld
/-!
# C04: small deposits and the minting of other deposits

The claim is false: see `C04_blocked`, `Example.C04_violated_blocked` and `Example.C04_violated_spoiled`. What holds is
`C04_exact`, `C04_partial` and `C04_progress_partial`.
-/

namespace EvmMinter
open Spec

namespace Spec

/-- A native deposit of less than the deposit fee. -/
def TooSmall (s : State) (d : Deposit) : Prop := ∃ e fee, d = .native e ∧ s.depositNativeFee = some fee ∧ e.value < fee

/-- An execution. -/
inductive Steps [Keccak] : World → World → Prop where
  | refl (w : World) : Steps w w
  | tail (w w' w'' : World) : Steps w w' → Step w' w'' → Steps w w''

theorem Steps.trans [Keccak] {w w' w'' : World} (h : Steps w w') (h' : Steps w' w'') : Steps w w'' := by
  induction h' with
  | refl => exact h
  | tail _ _ _ hs ih => exact .tail _ _ _ ih hs

theorem Steps.reachable [Keccak] {w w' : World} (h : Steps w w') (hr : Reachable w) : Reachable w' := by
  induction h with
  | refl => exact hr
  | tail _ _ _ hs ih => exact .step _ _ ih hs

end Spec

section
variable [Keccak]

theorem waiting_exclusive_of_tracks {log : List Event} {s : State} (h : Tracks log s) {src : EventSource} {d : Deposit}
    (hw : s.eventsToMint.get src = some d) : s.mintedEvents.get src = none ∧ s.invalidEvents.get src = none := by
  obtain ⟨s₀, h1, _, _, h4⟩ := h
  rw [h4] at hw ⊢
  exact C05_waiting_exclusive h1 src (by rw [show s₀.eventsToMint.get src = some d from hw]; rfl)

theorem mintTarget_ok {c : Mem} {env : MintEnv} {d : Deposit} (h : Tracks c.m.log c.m.st) {src : EventSource}
    (hw : c.m.st.eventsToMint.get src = some d) : ∃ x, c.mintTarget env d = .ok x := by
  cases d with
  | native e => exact ⟨_, rfl⟩
  | erc20 e =>
    have R := registry_of_tracks h
    obtain ⟨t, _, _, h3, _⟩ := R.exists_unique (R.deposits src e hw)
    refine ⟨(t.symbol, t.erc20LedgerId), ?_⟩
    simp [Mem.mintTarget, h3, expect, bind, Except.bind, pure, Except.pure]

omit [Keccak] in
theorem mintAmount_cases (s : State) (d : Deposit) :
    ((∃ a, d.mintAmount s.depositNativeFee = .ok a) ∧ ¬ TooSmall s d) ∨ ((∃ e, d.mintAmount s.depositNativeFee = .error e) ∧ TooSmall s d) := by
  unfold Deposit.mintAmount TooSmall
  split
  · rename_i e f hf
    split
    · rename_i hle
      refine .inl ⟨⟨_, rfl⟩, ?_⟩
      rintro ⟨e', fee, he, h2, h3⟩
      cases he
      rw [hf] at h2; cases h2
      exact absurd h3 (Nat.not_lt.2 hle)
    · rename_i hle
      exact .inr ⟨⟨_, rfl⟩, e, f, rfl, hf, Nat.not_le.1 hle⟩
  · rename_i hno
    refine .inl ⟨⟨_, rfl⟩, ?_⟩
    rintro ⟨e', fee, he, h2, h3⟩
    exact hno e' fee he h2

/-- The loop stops at small deposits only. -/
theorem mintLoop_cases {c : Mem} {env : MintEnv} {l : List Deposit} (h : Tracks c.m.log c.m.st) (q : MintQueue c.m.st env l) :
    (∃ e, c.mintLoop env l = .error e) ↔ ∃ d rest, l = d :: rest ∧ TooSmall c.m.st d := by
  cases l with
  | nil => simp [Mem.mintLoop]
  | cons d rest =>
    obtain ⟨x, hx⟩ := mintTarget_ok (env := env) h (q.waiting d (by simp))
    have ha := mintAmount_cases c.m.st d
    rw [← q.fee] at ha
    constructor
    · rintro ⟨e, he⟩
      refine ⟨d, rest, rfl, ?_⟩
      rcases ha with ⟨⟨a, ha⟩, _⟩ | ⟨_, h2⟩
      · simp [Mem.mintLoop, hx, ha, bind, Except.bind, pure, Except.pure] at he
      · exact h2
    · rintro ⟨d', rest', hd, hs⟩
      cases hd
      rcases ha with ⟨_, h2⟩ | ⟨⟨e, ha⟩, _⟩
      · exact absurd hs h2
      · exact ⟨e, by simp [Mem.mintLoop, hx, ha, bind, Except.bind]⟩

/-- **C04** (exactly when the timer fails): while no mint is running, the timer for minting traps, and so mints nothing, if and
only if the first of the waiting deposits, in the order of transaction hash and log index, is smaller than the fee. -/
theorem C04_exact {w : World} (h : Reachable w) (ha : .mint ∉ w.mem.active) (now : Nat) :
    (∃ e, Message.mint.run w.mem now = .error e) ↔
      ∃ d, w.mem.m.st.eventsToMint.values.head? = some d ∧ TooSmall w.mem.m.st d := by
  have hq : ∃ c, w.mem.acquire .mint = some c := by
    unfold Mem.acquire
    rw [if_neg ha]; exact ⟨_, rfl⟩
  obtain ⟨c, hc⟩ := hq
  have hm := Mem.acquire_m hc
  have T : Tracks c.m.log c.m.st := by rw [hm]; exact tracks h
  have := mintLoop_cases T (mintQueue_all (c := c) T)
  simp only [Message.run, Mem.startMint, hc]
  rw [this, hm]
  cases w.mem.m.st.eventsToMint.values with
  | nil => simp
  | cons d rest =>
    constructor
    · rintro ⟨d', rest', hd, hs⟩; cases hd; exact ⟨d, rfl, hs⟩
    · rintro ⟨d', hd, hs⟩; cases hd; exact ⟨d, rest, rfl, hs⟩

/-- **C04** is violated: a small deposit that comes first among the waiting deposits stops the minting of all others for good,
because the timer traps before it has done anything, at any time. -/
theorem C04_blocked {w : World} (h : Reachable w) (ha : .mint ∉ w.mem.active) {d : Deposit}
    (hd : w.mem.m.st.eventsToMint.values.head? = some d) (hs : TooSmall w.mem.m.st d) (now : Nat) {c : Mem} {n : Next} :
    Message.mint.run w.mem now ≠ .ok (c, n) := by
  obtain ⟨e, he⟩ := (C04_exact h ha now).2 ⟨d, hd, hs⟩
  rw [he]
  simp

theorem process_minted_ok {c : Mem} {d : Deposit} {sym : String} {b : Nat} (h : Tracks c.m.log c.m.st)
    (hw : c.m.st.eventsToMint.get d.source = some d) :
    ∃ c', c.process (d.mintedEvent sym b) = .ok c' ∧ (∃ m, c'.m.st.mintedEvents.get d.source = some m) ∧
      (∀ src m, c.m.st.mintedEvents.get src = some m → c'.m.st.mintedEvents.get src = some m) ∧
      c' = { c with m := c'.m } := by
  obtain ⟨h1, h2⟩ := waiting_exclusive_of_tracks h hw
  have hnc : ∀ {α : Type} {f : FMap EventSource α}, f.get d.source = none → f.contains d.source = false := fun h =>
    (FMap.contains_eq_false).2 h
  have key : ∃ s', applyEvent c.m.st (d.mintedEvent sym b) = .ok s' ∧ (∃ m, s'.mintedEvents.get d.source = some m) ∧
      (∀ src m, c.m.st.mintedEvents.get src = some m → s'.mintedEvents.get src = some m) := by
    have : ∀ (sy : String) (x : Option Address), ∃ s', c.m.st.recordSuccessfulMint d.source sy b x = .ok s' ∧
        (∃ m, s'.mintedEvents.get d.source = some m) ∧
        (∀ src m, c.m.st.mintedEvents.get src = some m → s'.mintedEvents.get src = some m) := by
      intro sy x
      refine ⟨{ c.m.st with
        eventsToMint := c.m.st.eventsToMint.erase d.source
        mintedEvents := c.m.st.mintedEvents.insert d.source ⟨d, b, sy, x⟩ }, ?_, ⟨_, FMap.get_insert_self _ _ _⟩, fun src m hm => ?_⟩
      · simp [State.recordSuccessfulMint, hnc h1, hnc h2, hw, ensure, expect, bind, Except.bind, pure, Except.pure]
      · show (c.m.st.mintedEvents.insert d.source _).get src = some m
        rw [FMap.get_insert, if_neg (by rintro rfl; rw [h1] at hm; cases hm)]
        exact hm
    cases d with
    | native e => exact this _ _
    | erc20 e => exact this _ _
  obtain ⟨s', k1, k2, k3⟩ := key
  refine ⟨{ c with m := ⟨s', c.m.log ++ [d.mintedEvent sym b]⟩ }, ?_, k2, k3, rfl⟩
  simp [Mem.process, Minter.processEvent, k1, bind, Except.bind, pure, Except.pure]

theorem mintRecord_ok {c : Mem} {env : MintEnv} {d : Deposit} {sym : String} {b : Nat} {l : List Deposit} (T : Tracks c.m.log c.m.st)
    (q : MintQueue c.m.st env (d :: l)) :
    ∃ c' : Mem, c.mintRecord env d sym b l = c'.mintLoop env l ∧ (∃ m, c'.m.st.mintedEvents.get d.source = some m) ∧
      (∀ src m, c.m.st.mintedEvents.get src = some m → c'.m.st.mintedEvents.get src = some m) ∧
      c'.m.st.depositNativeFee = c.m.st.depositNativeFee ∧ Tracks c'.m.log c'.m.st ∧ MintQueue c'.m.st env l := by
  obtain ⟨c', k1, k2, k3, _⟩ := process_minted_ok (sym := sym) (b := b) T (q.waiting d (by simp))
  have hg : Grew .mint c.m c'.m := Grew.process (by cases d <;> rfl) k1
  have hsh := hg.shift T
  have hf : c'.m.st.depositNativeFee = c.m.st.depositNativeFee := congrArg UpgradableConfig.depositNativeFee (hsh.upgradable (by simp))
  refine ⟨c', by simp [Mem.mintRecord, k1, bind, Except.bind], k2, k3, hf, hg.tracks T, ?_⟩
  simp only [Mem.process, Minter.processEvent, Res.bind_ok, Res.pure_ok] at k1
  obtain ⟨m, ⟨s, hs, rfl⟩, rfl⟩ := k1
  have hset := settles_minted hs
  refine ⟨q.ledger.trans (congrArg FixedConfig.nativeLedgerId hsh.fixed).symm, q.fee.trans hf.symm, (List.nodup_cons.1 q.nodup).2, fun x hx => ?_⟩
  refine hset.keep (fun e => ?_) (q.waiting x (by simp [hx]))
  exact (List.nodup_cons.1 q.nodup).1 (e ▸ List.mem_map_of_mem hx)

omit [Keccak] in
theorem tooSmall_congr {s s' : State} (h : s'.depositNativeFee = s.depositNativeFee) (d : Deposit) : TooSmall s' d ↔ TooSmall s d := by
  unfold TooSmall; rw [h]

theorem mintLoop_ok {c : Mem} {env : MintEnv} {l : List Deposit} (h : Tracks c.m.log c.m.st) (q : MintQueue c.m.st env l)
    (hs : ∀ d ∈ l, ¬ TooSmall c.m.st d) : ∃ c' n, c.mintLoop env l = .ok (c', n) := by
  cases hr : c.mintLoop env l with
  | ok r => exact ⟨r.1, r.2, rfl⟩
  | error e =>
    obtain ⟨d, rest, rfl, hd⟩ := (mintLoop_cases h q).1 ⟨e, hr⟩
    exact absurd hd (hs d (by simp))

/-- **C04** (what holds instead): as long as no waiting deposit is smaller than the fee, minting does not trap, neither when the
timer fires nor when a ledger has answered, whatever the answer is. -/
theorem C04_partial {w : World} (h : Reachable w) (hs : ∀ src d, w.mem.m.st.eventsToMint.get src = some d → ¬ TooSmall w.mem.m.st d) :
    (∀ now, ∃ c n, Message.mint.run w.mem now = .ok (c, n)) ∧
    ∀ p ∈ w.tasks, ∀ t a now, p.task = .ledger t → p.answer = some a → t.deposit.isSome → ∃ c n, t.resume w.mem a now = .ok (c, n) := by
  have T := tracks h
  refine ⟨fun now => ?_, fun p hp t a now ht ha hd => ?_⟩
  · simp only [Message.run]
    unfold Mem.startMint
    split
    · exact ⟨_, _, rfl⟩
    · rename_i c hc
      have hm := Mem.acquire_m hc
      have T' : Tracks c.m.log c.m.st := by rw [hm]; exact T
      refine mintLoop_ok T' (mintQueue_all T') fun d hd => ?_
      obtain ⟨src, hsrc⟩ := FMap.mem_values.1 hd
      rw [hm] at hsrc ⊢
      exact hs src d hsrc
  · have hin : p ∈ mintTasks w.tasks := by
      refine List.mem_filter.2 ⟨hp, ?_⟩
      simpa [Pending.minting, ht, Task.deposit] using hd
    have hcl := (mintInv h).claim hin ht
    have hrec : ∀ {env d sym b rest}, MintQueue w.mem.m.st env (d :: rest) → ∃ c n, w.mem.mintRecord env d sym b rest = .ok (c, n) := by
      intro env d sym b rest q
      obtain ⟨c', k1, _, _, k4, k5, k6⟩ := mintRecord_ok (sym := sym) (b := b) T q
      rw [k1]
      exact mintLoop_ok k5 k6 fun x hx hsm => hs _ _ (q.waiting x (by simp [hx])) ((tooSmall_congr k4 x).1 hsm)
    cases t with
    | mintUser env d sym l amount rest =>
      simp only [LedgerTask.resume]
      unfold Mem.onMintUser
      split
      · rename_i i
        have hi := ((answerInv h).block hp ht ha).1
        rw [show toU64 i = .ok i by simp [toU64, hi]]
        simp only [bind, Except.bind]
        split
        · exact ⟨_, _, rfl⟩
        · exact hrec hcl.1
      · exact mintLoop_ok T ⟨hcl.1.ledger, hcl.1.fee, (List.nodup_cons.1 hcl.1.nodup).2, fun x hx => hcl.1.waiting x (by simp [hx])⟩
          fun x hx => hs _ _ (hcl.1.waiting x (by simp [hx]))
    | mintFee env d sym l fee b rest => exact hrec hcl.1
    | _ => cases hd

/-! ## Progress -/

/-- The deposits `l` are minted on the way from `w` to `w'`. -/
structure MintedAll (w w' : World) (ts : List Pending) (l : List Deposit) : Prop where
  steps : Steps w w'
  tasks : w'.tasks = ts
  minted : ∀ d ∈ l, ∃ m, w'.mem.m.st.mintedEvents.get d.source = some m
  keep : ∀ src m, w.mem.m.st.mintedEvents.get src = some m → w'.mem.m.st.mintedEvents.get src = some m

theorem MintedAll.after {w w1 w' : World} {ts : List Pending} {l : List Deposit} (h : MintedAll w1 w' ts l) (hs : Steps w w1)
    (hk : ∀ src m, w.mem.m.st.mintedEvents.get src = some m → w1.mem.m.st.mintedEvents.get src = some m) : MintedAll w w' ts l :=
  ⟨hs.trans h.steps, h.tasks, h.minted, fun src m hm => h.keep src m (hk src m hm)⟩

/-- After the ledger has executed the last call of a task. -/
def executedWorld (w : World) (ts : List Pending) (id : Nat) (t : LedgerTask) : World :=
  { w with
    blocks := w.blocks ++ [⟨t.call w.mem.id, some (id, t)⟩]
    tasks := ts ++ [⟨id, .ledger t, some (.block (w.height (t.call w.mem.id).ledger))⟩] }

omit [Keccak] in
theorem executedWorld_height (w : World) (ts : List Pending) (id : Nat) (t : LedgerTask) (l : Principal) :
    (executedWorld w ts id t).height l ≤ w.height l + 1 := by
  simp only [executedWorld, World.height, List.filter_append, List.length_append]
  refine Nat.add_le_add_left ?_ _
  exact Nat.le_trans (List.length_filter_le _ _) (by simp)

theorem executedWorld_step {w : World} {ts : List Pending} {id : Nat} {t : LedgerTask} (ht : w.tasks = ts ++ [⟨id, .ledger t, none⟩])
    (hh : w.height (t.call w.mem.id).ledger < 2 ^ 64) : Step w (executedWorld w ts id t) := .execute w ts [] id t ht hh

theorem onMintUser_block (c : Mem) (env : MintEnv) (d : Deposit) (sym : String) (l : Principal) (rest : List Deposit) {i : Nat} (hi : i < 2 ^ 64) :
    (∃ e fee, d = .native e ∧ c.onMintUser env d sym l rest (.block i) = .ok (c, .await (.ledger (.mintFee env d sym l fee i rest)))) ∨
      c.onMintUser env d sym l rest (.block i) = c.mintRecord env d sym i rest := by
  unfold Mem.onMintUser
  simp only [show toU64 i = .ok i by simp [toU64, hi], bind, Except.bind]
  split
  · exact .inl ⟨_, _, rfl, rfl⟩
  · exact .inr rfl

/-- The rest of a run of the timer mints `l`, if ledgers execute all calls. -/
def MintsRest (l : List Deposit) : Prop :=
  ∀ {w : World} {ts : List Pending} {id : Nat} {t : LedgerTask} {a : LedgerAnswer} {env : MintEnv} {d : Deposit} {sym : String} {b : Nat},
    Reachable w → w.tasks = ts ++ [⟨id, .ledger t, some a⟩] →
    t.resume w.mem a 0 = w.mem.mintRecord env d sym b l → MintQueue w.mem.m.st env (d :: l) →
    (∀ x ∈ l, ¬ TooSmall w.mem.m.st x) → (∀ p, w.height p + 2 * l.length ≤ 2 ^ 64) → ∃ w', MintedAll w w' ts (d :: l)

/-- From the call to mint `d`. -/
theorem MintsRest.cons {l : List Deposit} (ih : MintsRest l) {w : World} {ts : List Pending} {id : Nat} {env : MintEnv} {d : Deposit}
    {sym : String} {ledger : Principal} {amount : Nat} (hr : Reachable w)
    (ht : w.tasks = ts ++ [⟨id, .ledger (.mintUser env d sym ledger amount l), none⟩]) (hs : ∀ x ∈ l, ¬ TooSmall w.mem.m.st x)
    (hh : ∀ p, w.height p + 2 * (l.length + 1) ≤ 2 ^ 64) : ∃ w', MintedAll w w' ts (d :: l) := by
  have q : MintQueue w.mem.m.st env (d :: l) := by
    refine ((mintInv hr).claim (p := ⟨id, .ledger (.mintUser env d sym ledger amount l), none⟩) (List.mem_filter.2 ⟨by rw [ht]; simp, ?_⟩) rfl).1
    simp [Pending.minting, Task.deposit, LedgerTask.deposit]
  have e1 := executedWorld_step ht (by have := hh ((LedgerTask.mintUser env d sym ledger amount l).call w.mem.id).ledger; omega)
  generalize hw2 : executedWorld w ts id (.mintUser env d sym ledger amount l) = w2 at e1
  have g2 : ∀ p, w2.height p ≤ w.height p + 1 := by subst hw2; intro p; exact executedWorld_height _ _ _ _ _
  have m2 : w2.mem = w.mem := by subst hw2; rfl
  have r2 : Reachable w2 := .step _ _ hr e1
  have t2 : ∃ i, w2.tasks = ts ++ [⟨id, .ledger (.mintUser env d sym ledger amount l), some (.block i)⟩] := by subst hw2; exact ⟨_, rfl⟩
  obtain ⟨i, t2⟩ := t2
  have hi : i < 2 ^ 64 :=
    ((answerInv r2).block (p := ⟨id, .ledger (.mintUser env d sym ledger amount l), some (.block i)⟩) (by rw [t2]; simp) rfl rfl).1
  rcases onMintUser_block w2.mem env d sym ledger l hi with ⟨e, fee, rfl, hres⟩ | hres
  · -- the fee
    have s3 : Step w2 (w2.advance ts [] id w2.mem (.await (.ledger (.mintFee env (.native e) sym ledger fee i l)))) :=
      .deliver w2 ts [] id _ _ 0 _ _ t2 hres
    generalize hw3 : w2.advance ts [] id w2.mem (.await (.ledger (.mintFee env (.native e) sym ledger fee i l))) = w3 at s3
    have t3 : w3.tasks = ts ++ [⟨id, .ledger (.mintFee env (.native e) sym ledger fee i l), none⟩] := by
      subst hw3; simp [World.advance, Next.pending]
    have m3 : w3.mem = w.mem := by subst hw3; exact m2
    have g3 : ∀ p, w3.height p = w2.height p := by subst hw3; intro p; rfl
    have e3 := executedWorld_step t3 (by
      have h1 := hh ((LedgerTask.mintFee env (.native e) sym ledger fee i l).call w3.mem.id).ledger
      have h2 := g2 ((LedgerTask.mintFee env (.native e) sym ledger fee i l).call w3.mem.id).ledger
      rw [g3]; omega)
    generalize hw4 : executedWorld w3 ts id (.mintFee env (.native e) sym ledger fee i l) = w4 at e3
    have g4 : ∀ p, w4.height p ≤ w.height p + 2 := by
      subst hw4; intro p
      have h1 := executedWorld_height w3 ts id (.mintFee env (.native e) sym ledger fee i l) p
      have h2 := g2 p
      rw [g3] at h1
      omega
    have m4 : w4.mem = w.mem := by subst hw4; exact m3
    have r4 : Reachable w4 := .step _ _ (.step _ _ r2 s3) e3
    have t4 : ∃ a, w4.tasks = ts ++ [⟨id, .ledger (.mintFee env (.native e) sym ledger fee i l), some a⟩] := by subst hw4; exact ⟨_, rfl⟩
    obtain ⟨a4, t4⟩ := t4
    obtain ⟨w', hw'⟩ := ih r4 t4 (env := env) (d := .native e) (sym := sym) (b := i) rfl (by rw [m4]; exact q) (by rw [m4]; exact hs)
      (fun p => by have := hh p; have := g4 p; omega)
    exact ⟨w', hw'.after (.tail _ _ _ (.tail _ _ _ (.tail _ _ _ (.refl _) e1) s3) e3) (by rw [m4]; exact fun _ _ h => h)⟩
  · obtain ⟨w', hw'⟩ := ih r2 t2 hres (by rw [m2]; exact q) (by rw [m2]; exact hs)
      (fun p => by have := hh p; have := g2 p; omega)
    exact ⟨w', hw'.after (.tail _ _ _ (.refl _) e1) (by rw [m2]; exact fun _ _ h => h)⟩

theorem mintsRest (l : List Deposit) : MintsRest l := by
  induction l with
  | nil =>
    intro w ts id t a env d sym b hr ht hres q hs hh
    obtain ⟨c', k1, k2, k3, _⟩ := mintRecord_ok (sym := sym) (b := b) (tracks hr) q
    rw [k1] at hres
    refine ⟨w.advance ts [] id (c'.release .mint) (.finish none), .tail _ _ _ (.refl _) (.deliver w ts [] id t a 0 _ _ ht hres), ?_, ?_, ?_⟩
    · simp [World.advance, Next.pending]
    · intro x hx
      rw [List.mem_singleton] at hx; subst hx
      exact k2
    · exact k3
  | cons d2 l ih =>
    intro w ts id t a env d sym b hr ht hres q hs hh
    obtain ⟨c', k1, k2, k3, k4, k5, k6⟩ := mintRecord_ok (sym := sym) (b := b) (tracks hr) q
    have hsm : ∀ x ∈ d2 :: l, ¬ TooSmall c'.m.st x := fun x hx hsm => hs x hx ((tooSmall_congr k4 x).1 hsm)
    obtain ⟨c'', n, hl⟩ := mintLoop_ok k5 k6 hsm
    rw [k1, hl] at hres
    simp only [Mem.mintLoop, Res.bind_ok, Res.pure_ok, Prod.mk.injEq] at hl
    obtain ⟨y, h1, amount, h2, rfl, rfl⟩ := hl
    have s1 : Step w (w.advance ts [] id c' (.await (.ledger (.mintUser env d2 y.1 y.2 amount l)))) := .deliver w ts [] id t a 0 _ _ ht hres
    generalize hw1 : w.advance ts [] id c' (.await (.ledger (.mintUser env d2 y.1 y.2 amount l))) = w1 at s1
    have t1 : w1.tasks = ts ++ [⟨id, .ledger (.mintUser env d2 y.1 y.2 amount l), none⟩] := by subst hw1; simp [World.advance, Next.pending]
    have m1 : w1.mem = c' := by subst hw1; rfl
    have g1 : ∀ p, w1.height p = w.height p := by subst hw1; intro p; rfl
    obtain ⟨w', hw'⟩ := ih.cons (.step _ _ hr s1) t1 (by rw [m1]; exact fun x hx => hsm x (by simp [hx]))
      (fun p => by have := hh p; rw [g1]; simpa using this)
    have := hw'.after (.tail _ _ _ (.refl _) s1) (by rw [m1]; exact k3)
    refine ⟨w', this.steps, this.tasks, fun x hx => ?_, this.keep⟩
    rcases List.mem_cons.1 hx with rfl | hx
    · obtain ⟨m, hm⟩ := k2
      exact ⟨m, hw'.keep _ _ (by rw [m1]; exact hm)⟩
    · exact this.minted x hx

/-- **C04** (what holds instead, continued): if no waiting deposit is smaller than the fee, no mint is running, and the ledgers
have room for the blocks and execute all calls, then one run of the timer mints all waiting deposits and records them as
minted. -/
theorem C04_progress_partial {w : World} (h : Reachable w) (ha : .mint ∉ w.mem.active)
    (hs : ∀ src d, w.mem.m.st.eventsToMint.get src = some d → ¬ TooSmall w.mem.m.st d)
    (hh : ∀ l, w.height l + 2 * w.mem.m.st.eventsToMint.values.length ≤ 2 ^ 64) :
    ∃ w', Steps w w' ∧ w'.tasks = w.tasks ∧
      ∀ src d, w.mem.m.st.eventsToMint.get src = some d → ∃ m, w'.mem.m.st.mintedEvents.get src = some m := by
  have hval : ∀ {src d}, w.mem.m.st.eventsToMint.get src = some d → d ∈ w.mem.m.st.eventsToMint.values ∧ d.source = src := fun hd =>
    ⟨FMap.mem_values.2 ⟨_, hd⟩, (accepted_of_tracks (tracks h) hd).1⟩
  have hq : ∃ c, w.mem.acquire .mint = some c := by
    unfold Mem.acquire
    rw [if_neg ha]; exact ⟨_, rfl⟩
  obtain ⟨c, hc⟩ := hq
  have hm := Mem.acquire_m hc
  have T : Tracks c.m.log c.m.st := by rw [hm]; exact tracks h
  cases hl : w.mem.m.st.eventsToMint.values with
  | nil => exact ⟨w, .refl _, rfl, fun src d hd => by have := (hval hd).1; rw [hl] at this; cases this⟩
  | cons d l =>
    have q := mintQueue_all (c := c) T
    rw [hm, hl] at q
    have hsl : ∀ x ∈ d :: l, ¬ TooSmall w.mem.m.st x := by
      intro x hx
      rw [← hl] at hx
      obtain ⟨src, hsrc⟩ := FMap.mem_values.1 hx
      exact hs src x hsrc
    obtain ⟨c', n, hloop⟩ := mintLoop_ok (c := c) T (by rw [hm]; exact q) (by rw [hm]; exact hsl)
    have hrun : Message.mint.run w.mem 0 = .ok (c', n) := by
      simp only [Message.run, Mem.startMint, hc]
      rw [hm, hl]; exact hloop
    simp only [Mem.mintLoop, Res.bind_ok, Res.pure_ok, Prod.mk.injEq] at hloop
    obtain ⟨y, h1, amount, h2, rfl, rfl⟩ := hloop
    have s1 := Step.start w .mint 0 _ _ trivial hrun
    generalize henv : (⟨w.mem.m.st.nativeLedgerId, w.mem.m.st.depositNativeFee⟩ : MintEnv) = env at *
    generalize hw1 : (w.begin .mint).advance w.tasks [] w.nextId c (.await (.ledger (.mintUser env d y.1 y.2 amount l))) = w1 at s1
    have t1 : w1.tasks = w.tasks ++ [⟨w.nextId, .ledger (.mintUser env d y.1 y.2 amount l), none⟩] := by
      subst hw1; simp [World.advance, Next.pending]
    have m1 : w1.mem = c := by subst hw1; rfl
    have g1 : ∀ p, w1.height p = w.height p := by subst hw1; intro p; rfl
    obtain ⟨w', hw'⟩ := MintsRest.cons (mintsRest l) (.step _ _ h s1) t1 (by rw [m1, hm]; exact fun x hx => hsl x (by simp [hx]))
      (fun p => by have := hh p; rw [hl] at this; rw [g1]; simpa using this)
    refine ⟨w', Steps.trans (.tail _ _ _ (.refl _) s1) hw'.steps, hw'.tasks, fun src x hx => ?_⟩
    obtain ⟨hx1, rfl⟩ := hval hx
    rw [hl] at hx1
    exact hw'.minted x hx1

end

namespace Example
attribute [local instance] keccak

/-- C04 is violated: the deposit fee is 50. A deposit of 40 comes first, one of 1000 second. The timer fires three times; nothing
is ever minted, and both deposits are still waiting. -/
theorem C04_violated_blocked : ∃ w, Reachable w ∧ decide (
    w.mem.m.st.eventsToMint.values.map Deposit.value = [40, 1000] ∧ w.mem.m.st.depositNativeFee = some 50 ∧
    w.blocks = [] ∧ w.tasks.length = 0 ∧ w.mem.active = [] ∧
    w.finished.map (·.2) = [.replied none, .trapped, .trapped, .trapped]) = true :=
  after_reachable (arg := initArg) (l := scrapeLogs [nativeLog 40 1, nativeLog 1000 3] ++
    [.start .mint 8, .start .mint 9, .start .mint 10]) (by decide +kernel)

/-- C04 is violated: a deposit of 1000 comes first, one of 40 second. The first is minted by the ledger, but the trap for the
second undoes the record of it: it is quarantined, not recorded as minted. -/
theorem C04_violated_spoiled : ∃ w, Reachable w ∧ decide (
    (w.blocks.filter fun b => b.call.credits ⟨0x21, 1⟩).map (·.call.op) = [.mint ⟨alice, none⟩ 950] ∧
    w.mem.m.st.mintedEvents.get ⟨0x21, 1⟩ = none ∧ w.mem.m.st.invalidEvents.get ⟨0x21, 1⟩ = some .quarantinedDeposit ∧
    w.finished.map (·.2) = [.replied none, .trapped]) = true :=
  after_reachable (arg := initArg) (l := scrapeLogs [nativeLog 1000 1, nativeLog 40 3] ++
    [.start .mint 8, .execute 0, .deliver 0 9, .execute 0, .deliver 0 10]) (by decide +kernel)

/-- Two deposits that are large enough are minted by one run of the timer. -/
theorem C04_example : ∃ w, Reachable w ∧ decide (
    w.mem.m.st.mintedEvents.get ⟨0x21, 1⟩ ≠ none ∧ w.mem.m.st.mintedEvents.get ⟨0x21, 3⟩ ≠ none ∧
    w.mem.m.st.eventsToMint.values = [] ∧ w.finished.map (·.2) = [.replied none, .replied none]) = true :=
  after_reachable (arg := initArg) (l := scrapeLogs [nativeLog 1000 1, nativeLog 50 3] ++
    [.start .mint 8, .execute 0, .deliver 0 9, .execute 0, .deliver 0 10, .execute 0, .deliver 0 9, .execute 0, .deliver 0 10])
    (by decide +kernel)

end Example

end EvmMinter
