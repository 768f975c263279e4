import Verif.Props.C59
import Verif.Spec.ExampleTrail
/-!
# C74: what is owed is paid in the end
-/

namespace EvmMinter
open Spec

section
variable [Keccak]

theorem Spec.Endless.reachable {ρ : Nat → World} (h : Endless ρ) (i : Nat) : Reachable (ρ i) := by
  induction i with
  | zero => exact h.init
  | succ i ih =>
    rcases h.step i with e | s
    · rw [e]; exact ih
    · exact .step _ _ ih s

/-! ## Callbacks run -/

/-- What becomes of a task in a step. -/
theorem Step.fate {w w' : World} (h : Reachable w) (hs : Step w w') {id : Nat} {t : LedgerTask} {o : Option LedgerAnswer}
    (hm : ⟨id, .ledger t, o⟩ ∈ w.tasks) :
    (∃ o', ⟨id, .ledger t, o'⟩ ∈ w'.tasks) ∨ (∃ a n, Delivers w w' id t a n) ∨
      (∃ a now e, ⟨id, .ledger t, some a⟩ ∈ w.tasks ∧ t.resume w.mem a now = .error e) ∨
      ((id, .killed) ∈ w'.finished ∧ (id, .killed) ∉ w.finished) := by
  have I := idInv h
  have fresh : (id, Outcome.killed) ∉ w.finished := fun hf => by
    have := (List.nodup_append.1 I.nodup).2.2 id (List.mem_map.2 ⟨_, hm, rfl⟩) id (List.mem_map.2 ⟨_, hf, rfl⟩)
    exact this rfl
  have same : ∀ {pre post p}, w.tasks = pre ++ p :: post → (⟨id, .ledger t, o⟩ : Pending) = p ∨ (⟨id, .ledger t, o⟩ : Pending) ∈ pre ++ post := by
    intro pre post p ht
    rw [ht] at hm
    simp only [List.mem_append, List.mem_cons] at hm ⊢
    rcases hm with hm | hm | hm
    · exact .inr (.inl hm)
    · exact .inl hm
    · exact .inr (.inr hm)
  have other : ∀ {pre post : List Pending} (l : List Pending), (⟨id, .ledger t, o⟩ : Pending) ∈ pre ++ post →
      (⟨id, .ledger t, o⟩ : Pending) ∈ pre ++ l ++ post := by
    intro pre post l h
    simp only [List.mem_append] at h ⊢
    rcases h with h | h
    · exact .inl (.inl h)
    · exact .inr h
  have insert : ∀ {pre post : List Pending} {y : Pending}, (⟨id, .ledger t, o⟩ : Pending) ∈ pre ++ post →
      (⟨id, .ledger t, o⟩ : Pending) ∈ pre ++ y :: post := by
    intro pre post y h
    simpa only [List.append_assoc, List.singleton_append] using other [y] h
  cases hs with
  | start msg now c n _ hr => exact .inl ⟨o, by simp [World.advance, World.begin, hm]⟩
  | startTrap msg now e _ hr => exact .inl ⟨o, by simp [World.drop, World.begin, hm]⟩
  | execute pre post id' t' ht hh =>
    rcases same ht with h | h
    · cases h; exact .inl ⟨_, List.mem_append_right _ List.mem_cons_self⟩
    · exact .inl ⟨o, insert h⟩
  | refuse pre post id' t' e ht hh =>
    rcases same ht with h | h
    · cases h; exact .inl ⟨_, List.mem_append_right _ List.mem_cons_self⟩
    · exact .inl ⟨o, insert h⟩
  | reject pre post id' t' ht =>
    rcases same ht with h | h
    · cases h; exact .inl ⟨_, List.mem_append_right _ List.mem_cons_self⟩
    · exact .inl ⟨o, insert h⟩
  | deliver pre post id' t' a now c n ht hr =>
    rcases same ht with h | h
    · cases h; exact .inr (.inl ⟨a, n, pre, post, now, c, ht, hr, rfl⟩)
    · exact .inl ⟨o, other _ h⟩
  | deliverTrap pre post id' t' a now e c ht hr hc =>
    rcases same ht with h | h
    · cases h; exact .inr (.inr (.inl ⟨a, now, e, hm, hr⟩))
    · exact .inl ⟨o, h⟩
  | kill pre post id' t' a c ht hc =>
    rcases same ht with h | h
    · cases h; exact .inr (.inr (.inr ⟨by simp [World.drop], fresh⟩))
    · exact .inl ⟨o, h⟩
  | answer pre post id' t' o' a now c n ht _ hr =>
    rcases same ht with h | h
    · cases h
    · exact .inl ⟨o, other _ h⟩
  | answerTrap pre post id' t' o' a now e c ht _ hr hc =>
    rcases same ht with h | h
    · cases h
    · exact .inl ⟨o, h⟩
  | killExt pre post id' t' o' c ht hc =>
    rcases same ht with h | h
    · cases h
    · exact .inl ⟨o, h⟩
  | foreign call hf => exact .inl ⟨o, hm⟩
  | upgrade arg log s ht hp => exact .inl ⟨o, hm⟩

/-- A callback that does not trap by itself runs. -/
theorem returns {ρ : Nat → World} {N : Nat} (h : Endless ρ) (S : Steady ρ N) {i id : Nat} {t : LedgerTask} {o : Option LedgerAnswer} (hN : N ≤ i)
    (hp : t.pays = true) (hm : ⟨id, .ledger t, o⟩ ∈ (ρ i).tasks)
    (hok : ∀ j, i ≤ j → ∀ a now, ⟨id, .ledger t, some a⟩ ∈ (ρ j).tasks → ∃ c n, t.resume (ρ j).mem a now = .ok (c, n)) :
    ∃ j, i ≤ j ∧ ∃ a n, Delivers (ρ j) (ρ (j + 1)) id t a n := by
  obtain ⟨j, hj, hgone⟩ := S.returns i hN id t o hp hm
  obtain ⟨k, rfl⟩ := Nat.exists_eq_add_of_le hj
  clear hj
  induction k generalizing i o with
  | zero => exact absurd hm (hgone o)
  | succ k ih =>
    have stay : (∃ o', ⟨id, .ledger t, o'⟩ ∈ (ρ (i + 1)).tasks) → ∃ j, i ≤ j ∧ ∃ a n, Delivers (ρ j) (ρ (j + 1)) id t a n := by
      rintro ⟨o', hm'⟩
      obtain ⟨j, hj, hd⟩ := ih (i := i + 1) (o := o') (Nat.le_succ_of_le hN) hm' (fun j hj => hok j (Nat.le_of_succ_le hj))
        (by rw [show i + 1 + k = i + (k + 1) by omega]; exact hgone)
      exact ⟨j, Nat.le_of_succ_le hj, hd⟩
    rcases h.step i with e | s
    · exact stay ⟨o, by rw [e]; exact hm⟩
    · rcases Step.fate (h.reachable i) s hm with hf | ⟨a, n, hd⟩ | ⟨a, now, e, h1, h2⟩ | ⟨h1, h2⟩
      · exact stay hf
      · exact ⟨i, Nat.le_refl _, a, n, hd⟩
      · obtain ⟨c, n, h3⟩ := hok i (Nat.le_refl _) a now h1
        rw [h3] at h2; cases h2
      · exact absurd (S.calm i hN id h1) h2

/-! ## Locks -/

/-- A task gets active only when a message starts. -/
theorem Step.activated {w w' : World} (h : Reachable w) (hs : Step w w') {x : TaskType} (h1 : x ∉ w.mem.active) (h2 : x ∈ w'.mem.active) :
    ∃ msg now c n, msg.run w.mem now = .ok (c, n) ∧ w' = (w.begin msg).advance w.tasks [] w.nextId c n ∧ x ∈ n.running := by
  have L := lockInv h
  have L' := lockInv (.step _ _ h hs)
  have k1 : x ∉ runningOf w.tasks := fun hh => h1 ((L.active _).2 hh)
  have k2 : x ∈ runningOf w'.tasks := (L'.active _).1 h2
  clear L L' h1 h2
  -- other steps start nothing
  have adv : ∀ {pre post : List Pending} {p : Pending} {id : Nat} {n : Next}, w.tasks = pre ++ p :: post →
      w'.tasks = pre ++ n.pending id ++ post → (∀ x ∈ n.running, x ∈ p.task.running) → x ∈ runningOf w.tasks := by
    intro pre post p id n h1 h2 h3
    rw [h2] at k2
    rw [h1]
    simp only [runningOf_append, runningOf_cons, runningOf_next, List.mem_append] at k2 ⊢
    rcases k2 with (hx | hx) | hx
    · exact .inl hx
    · exact .inr (.inl (h3 x hx))
    · exact .inr (.inr hx)
  have drp : ∀ {pre post : List Pending} {p : Pending}, w.tasks = pre ++ p :: post → w'.tasks = pre ++ post → x ∈ runningOf w.tasks := by
    intro pre post p h1 h2
    rw [h2] at k2
    rw [h1]
    simp only [runningOf_append, runningOf_cons, List.mem_append] at k2 ⊢
    rcases k2 with hx | hx
    · exact .inl hx
    · exact .inr (.inr hx)
  have ans : ∀ {pre post : List Pending} {id : Nat} {t : LedgerTask} {o o' : Option LedgerAnswer}, w.tasks = pre ++ ⟨id, .ledger t, o⟩ :: post →
      w'.tasks = pre ++ ⟨id, .ledger t, o'⟩ :: post → x ∈ runningOf w.tasks := by
    intro pre post id t o o' h1 h2
    rw [h2] at k2
    rw [h1]
    simpa [runningOf_append, runningOf_cons] using k2
  cases hs with
  | start msg now c n _ hr =>
    refine ⟨msg, now, c, n, hr, rfl, ?_⟩
    simp only [World.advance, runningOf_append, runningOf_next, List.mem_append] at k2
    rcases k2 with (k2 | k2) | k2
    · exact absurd k2 k1
    · exact k2
    · cases k2
  | startTrap msg now e _ hr => exact absurd (by simpa [World.drop, World.begin] using k2) k1
  | execute pre post id t ht hh => exact absurd (ans ht rfl) k1
  | refuse pre post id t e ht hh => exact absurd (ans ht rfl) k1
  | reject pre post id t ht => exact absurd (ans ht rfl) k1
  | deliver pre post id t a now c n ht hr => exact absurd (adv ht rfl (LedgerTask.resume_locks hr).run) k1
  | deliverTrap pre post id t a now e c ht hr hc => exact absurd (drp ht rfl) k1
  | kill pre post id t a c ht hc => exact absurd (drp ht rfl) k1
  | answer pre post id t o a now c n ht _ hr => exact absurd (adv ht rfl (ExtTask.resume_locks hr).run) k1
  | answerTrap pre post id t o a now e c ht _ hr hc => exact absurd (drp ht rfl) k1
  | killExt pre post id t o c ht hc => exact absurd (drp ht rfl) k1
  | foreign call hf => exact absurd k2 k1
  | upgrade arg log s ht hp => exact absurd k2 k1

/-- Only its timer starts a mint, only its timer starts a reimbursement. -/
theorem Step.activates {w w' : World} (h : Reachable w) (hs : Step w w') :
    (.mint ∉ w.mem.active → .mint ∈ w'.mem.active → Starts w w' .mint) ∧
      (.reimbursement ∉ w.mem.active → .reimbursement ∈ w'.mem.active → Starts w w' .reimbursement) := by
  refine ⟨fun h1 h2 => ?_, fun h1 h2 => ?_⟩
  · obtain ⟨msg, now, c, n, hr, e, hx⟩ := Step.activated h hs h1 h2
    obtain rfl := (Message.run_running hr).1 hx
    exact ⟨now, .inl ⟨c, n, hr, e⟩⟩
  · obtain ⟨msg, now, c, n, hr, e, hx⟩ := Step.activated h hs h1 h2
    obtain rfl := (Message.run_running hr).2 hx
    exact ⟨now, .inl ⟨c, n, hr, e⟩⟩

/-- A task that ends gives its lock back. -/
theorem Spec.Delivers.inactive {w w' : World} (h : Reachable w) {id : Nat} {t : LedgerTask} {a : LedgerAnswer} {r : Option Reply}
    (hd : Delivers w w' id t a (.finish r)) : ∀ x ∈ (Task.ledger t).running, x ∉ w'.mem.active := by
  obtain ⟨pre, post, now, c, ht, hr, rfl⟩ := hd
  have L := lockInv h
  have L' := lockInv (.step _ _ h (.deliver w pre post id t a now c _ ht hr))
  intro x hx ha
  have hx' := (L'.active x).1 ha
  have hn := L.rnodup
  rw [ht, runningOf_append, runningOf_cons] at hn
  simp only [List.nodup_append, List.mem_append] at hn
  obtain ⟨_, ⟨_, _, h4⟩, h5⟩ := hn
  simp only [World.advance, runningOf_append, runningOf_next, Next.running, List.mem_append] at hx'
  rcases hx' with (hx' | hx') | hx'
  · exact h5 x hx' x (.inl hx) rfl
  · cases hx'
  · exact h4 x hx x hx' rfl

/-! ## Minting -/

/-- The deposits a run of the mint timer has before it. -/
def LedgerTask.mints : LedgerTask → List Deposit
  | .mintUser _ d _ _ _ rest => d :: rest
  | .mintFee _ _ _ _ _ _ rest => rest
  | _ => []

/-- The number of calls of a run of the mint timer that may be left. -/
def LedgerTask.left : LedgerTask → Nat
  | .mintUser _ _ _ _ _ rest => 2 * rest.length + 1
  | .mintFee _ _ _ _ _ _ rest => 2 * rest.length
  | .reimburse _ _ _ rest => rest.length
  | _ => 0

/-- What comes after a callback of a mint: the end, or the next call. The deposit of the callback was credited, or its error counted. -/
theorem Spec.Delivers.mint {w w' : World} (h : Reachable w) {id : Nat} {t : LedgerTask} {a : LedgerAnswer} {n : Next} (hd : Delivers w w' id t a n)
    (hp : t.deposit.isSome) :
    ((n = .finish none ∧ ∀ d ∈ t.mints, t.deposit = some d) ∨ ∃ t', n = .await (.ledger t') ∧ t'.deposit.isSome ∧ t'.left < t.left ∧
        ∀ d ∈ t.mints, d ∈ t'.mints ∨ t.deposit = some d) ∧
      (∀ d, t.deposit = some d → w.Credited d ∨ t.countsError a = true) := by
  obtain ⟨pre, post, now, c, ht, hr, rfl⟩ := hd
  have hm : (⟨id, .ledger t, some a⟩ : Pending) ∈ w.tasks := by rw [ht]; simp
  have loop : ∀ {c0 : Mem} {env : MintEnv} {rest : List Deposit}, c0.mintLoop env rest = .ok (c, n) →
      (n = .finish none ∧ rest = []) ∨ ∃ t', n = .await (.ledger t') ∧ t'.deposit.isSome ∧ t'.left + 1 = 2 * rest.length ∧ t'.mints = rest := by
    intro c0 env rest hl
    cases rest with
    | nil => cases hl; exact .inl ⟨rfl, rfl⟩
    | cons x rest =>
      simp only [Mem.mintLoop, Res.bind_ok, Res.pure_ok, Prod.mk.injEq] at hl
      obtain ⟨_, _, _, _, _, rfl⟩ := hl
      exact .inr ⟨_, rfl, rfl, by simp [LedgerTask.left]; omega, rfl⟩
  cases t <;> simp only [LedgerTask.deposit, Option.isSome_some, Option.isSome_none, Bool.false_eq_true] at hp
  case mintUser env d sym l amount rest =>
    refine ⟨?_, fun d' hd' => ?_⟩
    · have hl : (∃ t', n = .await (.ledger t') ∧ t'.deposit.isSome ∧ t'.left + 1 = 2 * rest.length + 1 ∧ t'.mints = rest) ∨
          ∃ c0, Mem.mintLoop c0 env rest = .ok (c, n) := by
        simp only [LedgerTask.resume] at hr
        rcases Mem.onMintUser_cases hr with ⟨i, fee, e, rfl, hi, rfl, hf, rfl, rfl⟩ | ⟨i, c1, rfl, hi, _, hp, hl⟩ | ⟨_, hl⟩
        · exact .inl ⟨_, rfl, rfl, rfl, rfl⟩
        · exact .inr ⟨_, hl⟩
        · exact .inr ⟨_, hl⟩
      have fin : ∀ {t' : LedgerTask}, t'.mints = rest → ∀ d' ∈ (LedgerTask.mintUser env d sym l amount rest).mints,
          d' ∈ t'.mints ∨ (LedgerTask.mintUser env d sym l amount rest).deposit = some d' := by
        intro t' h d' hd'
        rw [h]
        rcases List.mem_cons.1 hd' with rfl | hd'
        · exact .inr rfl
        · exact .inl hd'
      rcases hl with ⟨t', h1, h2, h3, h4⟩ | ⟨c0, hl⟩
      · exact .inr ⟨t', h1, h2, by show t'.left < 2 * rest.length + 1; omega, fin h4⟩
      · rcases loop hl with ⟨h1, h2⟩ | ⟨t', h1, h2, h3, h4⟩
        · subst h2
          exact .inl ⟨h1, fun d' hd' => congrArg some (List.mem_singleton.1 hd').symm⟩
        · exact .inr ⟨t', h1, h2, by show t'.left < 2 * rest.length + 1; omega, fin h4⟩
    · by_cases ha : ∃ i, a = .block i
      · exact .inl (credited_of_block h hm hd' fun _ => ha)
      · right
        cases a with
        | block i => exact absurd ⟨i, rfl⟩ ha
        | refused e => rfl
        | rejected => rfl
  case mintFee env d sym l fee block rest =>
    refine ⟨?_, fun d' hd' => .inl (credited_of_block h hm hd' fun ⟨_, _, _, _, _, h⟩ => by cases h)⟩
    simp only [LedgerTask.resume, Mem.mintRecord, Res.bind_ok] at hr
    obtain ⟨c1, _, hl⟩ := hr
    rcases loop hl with ⟨h1, h2⟩ | ⟨t', h1, h2, h3, h4⟩
    · subst h2; exact .inl ⟨h1, fun d' hd' => by cases hd'⟩
    · exact .inr ⟨t', h1, h2, by show t'.left < 2 * rest.length; omega, fun d' hd' => .inl (by rw [h4]; exact hd')⟩

omit [Keccak] in
theorem LedgerTask.pays_of_deposit {t : LedgerTask} (h : t.deposit.isSome) : t.pays = true := by
  cases t <;> simp [LedgerTask.deposit] at h <;> rfl

omit [Keccak] in
theorem LedgerTask.running_of_deposit {t : LedgerTask} (h : t.deposit.isSome) : .mint ∈ (Task.ledger t).running := by
  cases t <;> simp [LedgerTask.deposit] at h <;> simp [Task.running]

theorem credited_mono {ρ : Nat → World} (h : Endless ρ) {i j : Nat} (hij : i ≤ j) {d : Deposit} (hc : (ρ i).Credited d) : (ρ j).Credited d := by
  induction hij with
  | refl => exact hc
  | step _ ih =>
    rename_i k _
    rcases h.step k with e | s
    · rw [e]; exact ih
    · exact credited_grows (Step.grows (h.reachable k) s) (registry_of_tracks (tracks (h.reachable k))).wf
        (registry_of_tracks (tracks (h.reachable (k + 1)))).wf ih

/-- The condition of C04: no waiting deposit is smaller than the fee. -/
def NoSmall (ρ : Nat → World) (N : Nat) : Prop :=
  ∀ i, N ≤ i → ∀ src d, (ρ i).mem.m.st.eventsToMint.get src = some d → ¬ TooSmall (ρ i).mem.m.st d

/-- A run of the mint timer ends; the deposits it had before it are credited by then, or their errors are counted. -/
theorem mint_ends {ρ : Nat → World} {N : Nat} (h : Endless ρ) (S : Steady ρ N) (hsm : NoSmall ρ N) {id : Nat} (m : Nat) :
    ∀ {i : Nat} {t : LedgerTask} {o : Option LedgerAnswer}, t.left < m → N ≤ i → t.deposit.isSome → ⟨id, .ledger t, o⟩ ∈ (ρ i).tasks →
      ∃ j, i ≤ j ∧ ∃ t' a', t'.deposit.isSome ∧ Delivers (ρ j) (ρ (j + 1)) id t' a' (.finish none) ∧
        ∀ d, d ∈ t.mints → (ρ (j + 1)).Credited d ∨
          ∃ k t'' a'' n'', i ≤ k ∧ k ≤ j ∧ Delivers (ρ k) (ρ (k + 1)) id t'' a'' n'' ∧ t''.deposit = some d ∧ t''.countsError a'' = true := by
  induction m with
  | zero => intro i t o hl; exact absurd hl (Nat.not_lt_zero _)
  | succ m ih =>
    intro i t o hl hN hp hm
    obtain ⟨j, hj, a, n, hd⟩ := returns h S hN (LedgerTask.pays_of_deposit hp) hm fun j hj a now hm' =>
      (C04_partial (h.reachable j) (hsm j (Nat.le_trans hN hj))).2 _ hm' t a now rfl rfl hp
    obtain ⟨h1, h2⟩ := hd.mint (h.reachable j) hp
    have own : ∀ {k}, j ≤ k → ∀ d, t.deposit = some d → (ρ (k + 1)).Credited d ∨
          ∃ k' t'' a'' n'', i ≤ k' ∧ k' ≤ k ∧ Delivers (ρ k') (ρ (k' + 1)) id t'' a'' n'' ∧ t''.deposit = some d ∧ t''.countsError a'' = true := by
      intro k hk d hd'
      rcases h2 d hd' with hc | hc
      · exact .inl (credited_mono h (Nat.le_succ_of_le hk) hc)
      · exact .inr ⟨j, t, a, n, hj, hk, hd, hd', hc⟩
    rcases h1 with ⟨rfl, h1⟩ | ⟨t', rfl, h3, h4, h5⟩
    · exact ⟨j, hj, t, a, hp, hd, fun d hd' => own (Nat.le_refl _) d (h1 d hd')⟩
    · have hm' : (⟨id, .ledger t', none⟩ : Pending) ∈ (ρ (j + 1)).tasks := by
        obtain ⟨pre, post, now, c, _, _, he⟩ := hd
        rw [he]
        simp [World.advance, Next.pending]
      obtain ⟨k, hk, t'', a'', k1, k2, k3⟩ := ih (i := j + 1) (t := t') (Nat.lt_of_lt_of_le h4 (Nat.le_of_lt_succ hl))
        (Nat.le_trans hN (Nat.le_succ_of_le hj)) h3 hm'
      refine ⟨k, by omega, t'', a'', k1, k2, fun d hd' => ?_⟩
      rcases h5 d hd' with h5 | h5
      · refine (k3 d h5).imp_right fun ⟨k', t3, a3, n3, g1, g2, g3⟩ => ⟨k', t3, a3, n3, by omega, g2, g3⟩
      · exact own (by omega) d h5

/-- Firing while no mint is running takes up all waiting deposits. -/
theorem Spec.Starts.covers {w w' : World} (h : Reachable w) (ha : .mint ∉ w.mem.active)
    (hsm : ∀ src d, w.mem.m.st.eventsToMint.get src = some d → ¬ TooSmall w.mem.m.st d) (hs : Starts w w' .mint) {src : EventSource} {d : Deposit}
    (hw : w.mem.m.st.eventsToMint.get src = some d) : w'.Covers d := by
  obtain ⟨now, ⟨c, n, hr, rfl⟩ | ⟨e, hr, _⟩⟩ := hs
  · simp only [Message.run] at hr
    unfold Mem.startMint at hr
    split at hr
    · rename_i hq
      unfold Mem.acquire at hq
      rw [if_neg ha] at hq
      cases hq
    · rename_i c1 hq
      have hm := Mem.acquire_m hq
      have hd : d ∈ c1.m.st.eventsToMint.values := by rw [hm]; exact FMap.mem_values.2 ⟨src, hw⟩
      generalize c1.m.st.eventsToMint.values = l at hd hr
      cases l with
      | nil => cases hd
      | cons x rest =>
        simp only [Mem.mintLoop, Res.bind_ok, Res.pure_ok, Prod.mk.injEq] at hr
        obtain ⟨y, _, amount, _, _, rfl⟩ := hr
        exact ⟨w.nextId, _, x, _, _, amount, rest, none, List.mem_append_left _ (List.mem_append_right _ List.mem_cons_self), hd⟩
  · obtain ⟨c, n, h1⟩ := (C04_partial h hsm).1 now
    rw [h1] at hr; cases hr

/-- After a time at which no mint is running, a timer that fires makes sure that a deposit that keeps waiting is taken up. -/
theorem covered {ρ : Nat → World} {N : Nat} (h : Endless ρ) (hsm : NoSmall ρ N) {src : EventSource} {d : Deposit} (n : Nat) :
    ∀ {e : Nat}, N ≤ e → .mint ∉ (ρ e).mem.active → (∀ j, e ≤ j → (ρ j).mem.m.st.eventsToMint.get src = some d) →
      Starts (ρ (e + n)) (ρ (e + n + 1)) .mint → ∃ s, e < s ∧ (ρ s).Covers d := by
  induction n with
  | zero =>
    intro e hN ha hw hs
    exact ⟨e + 1, Nat.lt_succ_self _, hs.covers (h.reachable e) ha (hsm e hN) (hw e (Nat.le_refl _))⟩
  | succ n ih =>
    intro e hN ha hw hs
    by_cases ha' : .mint ∈ (ρ (e + 1)).mem.active
    · rcases h.step e with he | hst
      · rw [he] at ha'; exact absurd ha' ha
      · exact ⟨e + 1, Nat.lt_succ_self _, ((Step.activates (h.reachable e) hst).1 ha ha').covers (h.reachable e) ha (hsm e hN) (hw e (Nat.le_refl _))⟩
    · rw [show e + (n + 1) = e + 1 + n by omega] at hs
      obtain ⟨s, h1, h2⟩ := ih (Nat.le_succ_of_le hN) ha' (fun j hj => hw j (Nat.le_of_succ_le hj)) hs
      exact ⟨s, Nat.lt_of_succ_lt h1, h2⟩

/-- What waits keeps waiting or is credited. -/
theorem waits {ρ : Nat → World} {N : Nat} (h : Endless ρ) (S : Steady ρ N) (hsm : NoSmall ρ N) {src : EventSource} {d : Deposit} {i : Nat}
    (hN : N ≤ i) (hw : (ρ i).mem.m.st.eventsToMint.get src = some d) (hc : ∀ j, ¬ (ρ j).Credited d) {j : Nat} (hj : i ≤ j) :
    (ρ j).mem.m.st.eventsToMint.get src = some d := by
  induction hj with
  | refl => exact hw
  | step hj ih =>
    rename_i k
    rcases h.step k with e | s
    · rw [e]; exact ih
    · rcases Step.waiting (h.reachable k) s ih with h1 | h1 | ⟨id, _, t, a, o, h2, h3, h4, h5⟩
      · exact h1
      · exact absurd h1 (hc _)
      · exfalso
        rcases h5 with rfl | ⟨rfl, now, e, h5⟩
        · have hf := S.calm k (Nat.le_trans hN hj) id h4
          exact (List.nodup_append.1 (idInv (h.reachable k)).nodup).2.2 id (List.mem_map.2 ⟨_, h2, rfl⟩) id (List.mem_map.2 ⟨_, hf, rfl⟩) rfl
        · obtain ⟨src', d', h6, h7⟩ := mint_trap (h.reachable k) h2 h3 h5
          exact hsm k (Nat.le_trans hN hj) src' d' h6 h7

/-- A run that has the deposit before it, once ledgers execute its mints. -/
theorem credited_of_covers {ρ : Nat → World} {N M : Nat} (h : Endless ρ) (S : Steady ρ N) (hsm : NoSmall ρ N) {d : Deposit}
    (hl : MintsFrom ρ M d) {s : Nat} (hN : N ≤ s) (hM : M ≤ s) (hc : (ρ s).Covers d) : ∃ j, s ≤ j ∧ (ρ j).Credited d := by
  obtain ⟨id, env, x, sym, l, amount, rest, o, hm, hd⟩ := hc
  obtain ⟨j, hj, _, _, _, _, h3⟩ := mint_ends h S hsm _ (Nat.lt_succ_self _) hN rfl hm
  rcases h3 d hd with h3 | ⟨k, t, a, n, h4, h5, ⟨pre, post, _, _, h6, _⟩, h7, h8⟩
  · exact ⟨j + 1, by omega, h3⟩
  · exfalso
    cases t with
    | mintUser env' d' sym' l' amount' rest' =>
      simp only [LedgerTask.deposit, Option.some.injEq] at h7
      subst h7
      obtain ⟨b, rfl⟩ := hl k (by omega) id env' sym' l' amount' rest' a (by rw [h6]; simp)
      cases h8
    | mintFee => cases h8
    | _ => cases h7

/-- The end of the running mint, if there is one. -/
theorem mint_pauses {ρ : Nat → World} {N : Nat} (h : Endless ρ) (S : Steady ρ N) (hsm : NoSmall ρ N) {i : Nat} (hN : N ≤ i) :
    ∃ e, i ≤ e ∧ .mint ∉ (ρ e).mem.active := by
  by_cases ha : .mint ∈ (ρ i).mem.active
  · obtain ⟨p, hp, hr⟩ := List.mem_flatMap.1 (((lockInv (h.reachable i)).active _).1 ha)
    obtain ⟨id, t, o⟩ := p
    cases t with
    | ext t => cases t <;> simp [Task.running] at hr
    | ledger t =>
      have hd : t.deposit.isSome := by cases t <;> simp [Task.running] at hr <;> rfl
      obtain ⟨j, hj, t', a', h1, h2, _⟩ := mint_ends h S hsm _ (Nat.lt_succ_self _) hN hd hp
      exact ⟨j + 1, by omega, h2.inactive (h.reachable j) _ (LedgerTask.running_of_deposit h1)⟩
  · exact ⟨i, Nat.le_refl _, ha⟩

/-- Again and again there is a time at which no mint is running. -/
theorem C74_pauses {ρ : Nat → World} {N : Nat} (h : Endless ρ) (S : Steady ρ N)
    (hsm : ∀ i, N ≤ i → ∀ src d, (ρ i).mem.m.st.eventsToMint.get src = some d → ¬ TooSmall (ρ i).mem.m.st d) {i : Nat} (hN : N ≤ i) :
    ∃ e, i ≤ e ∧ .mint ∉ (ρ e).mem.active := mint_pauses h S hsm hN

/-- **C74** (deposits): in an execution that is steady from time `N` on, a deposit that waits at some time after `N` is credited in the
end, if no waiting deposit is smaller than the fee (see C04), and if logs come in once more after a time `e` at which no mint is running
(see `C74_pauses`) and from which on the ledgers execute its mints. -/
theorem C74_minted {ρ : Nat → World} {N M : Nat} (h : Endless ρ) (S : Steady ρ N)
    (hsm : ∀ i, N ≤ i → ∀ src d, (ρ i).mem.m.st.eventsToMint.get src = some d → ¬ TooSmall (ρ i).mem.m.st d)
    {src : EventSource} {d : Deposit} (hl : MintsFrom ρ M d) {i : Nat} (hN : N ≤ i) (hw : (ρ i).mem.m.st.eventsToMint.get src = some d)
    {e k : Nat} (hi : i ≤ e) (hM : M ≤ e) (ha : .mint ∉ (ρ e).mem.active) (hk : e ≤ k) (hlog : LogsCome ρ k) :
    ∃ j, i ≤ j ∧ (ρ j).Credited d := by
  refine Classical.byContradiction fun hno => ?_
  have hc : ∀ j, ¬ (ρ j).Credited d := fun j hc => hno ⟨max i j, Nat.le_max_left _ _, credited_mono h (Nat.le_max_right _ _) hc⟩
  have hw' := fun {j} => waits h S hsm hN hw hc (j := j)
  -- logs, then the timer
  obtain ⟨q, l, hq⟩ := hlog
  obtain ⟨j, hj, hst⟩ := S.registered k (by omega) _ _ hq (by
    have : d ∈ (ρ (k + 1)).mem.m.st.eventsToMint.values := FMap.mem_values.2 ⟨src, hw' (by omega)⟩
    simp only [ExtTask.setsMintTimer, State.hasEventsToMint]
    have hne : (ρ (k + 1)).mem.m.st.eventsToMint.toList ≠ [] := fun hx => by
      rw [show (ρ (k + 1)).mem.m.st.eventsToMint.values = (ρ (k + 1)).mem.m.st.eventsToMint.toList.map (·.2) from rfl, hx] at this
      cases this
    simp [hne])
  obtain ⟨s, hs, hcov⟩ := covered h hsm (j - e) (e := e) (by omega) ha (fun j hj => hw' (by omega))
    (by rw [show e + (j - e) = j by omega]; exact hst)
  obtain ⟨r, hr, hcr⟩ := credited_of_covers h S hsm hl (s := s) (by omega) (by omega) hcov
  exact hc r hcr

/-- **C74** (deposits, retries): a deposit that a run of the mint timer has before it at some time after `N` is credited in the end by
that run or by the runs set off by the errors of earlier ones, without further logs, once the ledgers execute its mints. -/
theorem C74_retried {ρ : Nat → World} {N M : Nat} (h : Endless ρ) (S : Steady ρ N)
    (hsm : ∀ i, N ≤ i → ∀ src d, (ρ i).mem.m.st.eventsToMint.get src = some d → ¬ TooSmall (ρ i).mem.m.st d)
    {d : Deposit} (hl : MintsFrom ρ M d) {i : Nat} (hN : N ≤ i) (hcov : (ρ i).Covers d) : ∃ j, i ≤ j ∧ (ρ j).Credited d := by
  refine Classical.byContradiction fun hno => ?_
  have hc : ∀ j, ¬ (ρ j).Credited d := fun j hc => hno ⟨max i j, Nat.le_max_left _ _, credited_mono h (Nat.le_max_right _ _) hc⟩
  have hw : (ρ i).mem.m.st.eventsToMint.get d.source = some d := by
    obtain ⟨id, env, x, sym, l, amount, rest, o, hm, hd⟩ := hcov
    have := (mintInv (h.reachable i)).claim (p := ⟨id, .ledger (.mintUser env x sym l amount rest), o⟩)
      (List.mem_filter.2 ⟨hm, by simp [Pending.minting, Task.deposit, LedgerTask.deposit]⟩) rfl
    exact this.1.waiting d hd
  have hw' := fun {j} => waits h S hsm hN hw hc (j := j)
  have again : ∀ s, i ≤ s → (ρ s).Covers d → ∃ s', s < s' ∧ (ρ s').Covers d := by
    intro s hs hcov
    obtain ⟨id, env, x, sym, l, amount, rest, o, hm, hd⟩ := hcov
    obtain ⟨j, hj, t', a', h1, h2, h3⟩ := mint_ends h S hsm _ (Nat.lt_succ_self _) (Nat.le_trans hN hs) rfl hm
    rcases h3 d hd with h3 | ⟨k, t, a, n, h4, h5, h6, h7, h8⟩
    · exact absurd h3 (hc _)
    · obtain ⟨k', h9, h10⟩ := S.retried k j (by omega) h5 id t a n t' a' none h6 h8 h2
      have ha := h2.inactive (h.reachable j) _ (LedgerTask.running_of_deposit h1)
      obtain ⟨s', h11, h12⟩ := covered h hsm (k' - (j + 1)) (e := j + 1) (by omega) ha (fun j hj => hw' (by omega))
        (by rw [show j + 1 + (k' - (j + 1)) = k' by omega]; exact h10)
      exact ⟨s', by omega, h12⟩
  have late : ∀ n, ∃ s, i + n ≤ s ∧ (ρ s).Covers d := by
    intro n
    induction n with
    | zero => exact ⟨i, Nat.le_refl _, hcov⟩
    | succ n ih =>
      obtain ⟨s, h1, h2⟩ := ih
      obtain ⟨s', h3, h4⟩ := again s (by omega) h2
      exact ⟨s', by omega, h4⟩
  obtain ⟨s, h1, h2⟩ := late M
  obtain ⟨r, hr, hcr⟩ := credited_of_covers h S hsm hl (s := s) (by omega) (by omega) h2
  exact hc r hcr

/-! ## Reimbursing -/

theorem repaid_mono {ρ : Nat → World} (h : Endless ρ) {i j : Nat} (hij : i ≤ j) {x : ReimbIndex} {r : ReimbRequest} (hc : (ρ i).Repaid x r) :
    (ρ j).Repaid x r := by
  induction hij with
  | refl => exact hc
  | step _ ih =>
    rename_i k _
    rcases h.step k with e | s
    · rw [e]; exact ih
    · exact repaid_grows (Step.grows (h.reachable k) s) ih

/-- A run of the reimbursement timer ends; what it had before it is repaid by then, or a ledger did not execute it. -/
theorem reimburse_ends {ρ : Nat → World} {N : Nat} (h : Endless ρ) (S : Steady ρ N) (hn : ∀ i, NonceNeverLowered (ρ i).mem.m.log) {id : Nat} :
    ∀ (rest : List (ReimbIndex × ReimbRequest)) {i : Nat} {x : ReimbIndex} {r : ReimbRequest} {l : Principal} {o : Option LedgerAnswer}, N ≤ i →
      ⟨id, .ledger (.reimburse x r l rest), o⟩ ∈ (ρ i).tasks →
      ∃ j, i ≤ j ∧ .reimbursement ∉ (ρ (j + 1)).mem.active ∧ ∀ y ∈ (x, r) :: rest, (ρ (j + 1)).Repaid y.1 y.2 ∨
        ∃ k l' rest' a, i ≤ k ∧ ⟨id, .ledger (.reimburse y.1 y.2 l' rest'), some a⟩ ∈ (ρ k).tasks ∧ ∀ b, a ≠ .block b := by
  intro rest
  induction rest with
  | nil =>
    intro i x r l o hN hm
    obtain ⟨j, hj, a, n, hd⟩ := returns h S hN rfl hm fun j hj a now hm' => reimburse_resume_ok (h.reachable j) (hn j) hm' now
    obtain ⟨pre, post, now, c, ht, hr, he⟩ := hd
    have hm' : (⟨id, .ledger (.reimburse x r l []), some a⟩ : Pending) ∈ (ρ j).tasks := by rw [ht]; simp
    have hfin : n = .finish none := by
      simp only [LedgerTask.resume] at hr
      rcases Mem.onReimburse_cases hr with ⟨i, c1, rfl, hi, hp, hl⟩ | ⟨_, hl⟩ <;> cases hl <;> rfl
    subst hfin
    refine ⟨j, hj, Delivers.inactive (h.reachable j) ⟨pre, post, now, c, ht, hr, he⟩ _ (by simp [Task.running]), fun y hy => ?_⟩
    obtain rfl := List.mem_singleton.1 hy
    by_cases hb : ∃ b, a = .block b
    · obtain ⟨b, rfl⟩ := hb
      exact .inl (repaid_mono h (Nat.le_succ _) (repaid_of_block (h.reachable j) hm'))
    · exact .inr ⟨j, l, [], a, hj, hm', fun b hb' => hb ⟨b, hb'⟩⟩
  | cons z rest ih =>
    intro i x r l o hN hm
    obtain ⟨j, hj, a, n, hd⟩ := returns h S hN rfl hm fun j hj a now hm' => reimburse_resume_ok (h.reachable j) (hn j) hm' now
    obtain ⟨pre, post, now, c, ht, hr, he⟩ := hd
    have hm' : (⟨id, .ledger (.reimburse x r l (z :: rest)), some a⟩ : Pending) ∈ (ρ j).tasks := by rw [ht]; simp
    have hnext : ∃ l', n = .await (.ledger (.reimburse z.1 z.2 l' rest)) := by
      simp only [LedgerTask.resume] at hr
      rcases Mem.onReimburse_cases hr with ⟨i, c1, rfl, hi, hp, hl⟩ | ⟨_, hl⟩ <;> cases hl <;> exact ⟨_, rfl⟩
    obtain ⟨l', rfl⟩ := hnext
    have hm2 : (⟨id, .ledger (.reimburse z.1 z.2 l' rest), none⟩ : Pending) ∈ (ρ (j + 1)).tasks := by
      rw [he]; simp [World.advance, Next.pending]
    obtain ⟨k, hk, k1, k2⟩ := ih (i := j + 1) (by omega) hm2
    refine ⟨k, by omega, k1, fun y hy => ?_⟩
    rcases List.mem_cons.1 hy with rfl | hy
    · by_cases hb : ∃ b, a = .block b
      · obtain ⟨b, rfl⟩ := hb
        exact .inl (repaid_mono h (by omega) (repaid_of_block (h.reachable j) hm'))
      · exact .inr ⟨j, l, z :: rest, a, hj, hm', fun b hb' => hb ⟨b, hb'⟩⟩
    · exact (k2 y hy).imp_right fun ⟨k', l', rest', a, g1, g2⟩ => ⟨k', l', rest', a, by omega, g2⟩

/-- A run of the reimbursement timer has `x` before it. -/
def Recoups (w : World) (x : ReimbIndex) (r : ReimbRequest) : Prop :=
  ∃ id y q l rest o, ⟨id, .ledger (.reimburse y q l rest), o⟩ ∈ w.tasks ∧ (x, r) ∈ (y, q) :: rest

theorem Spec.Starts.recoups {w w' : World} (ha : .reimbursement ∉ w.mem.active) (hs : Starts w w' .reimbursement)
    {x : ReimbIndex} {r : ReimbRequest} (hw : w.mem.m.st.txs.reimbursementRequests.get x = some r) : Recoups w' x r := by
  have key : ∀ now, ∃ y q l rest c, Message.reimbursement.run w.mem now = .ok (c, .await (.ledger (.reimburse y q l rest))) ∧ (x, r) ∈ (y, q) :: rest := by
    intro now
    simp only [Message.run]
    unfold Mem.startReimbursement
    split
    · rename_i hq
      unfold Mem.acquire at hq
      rw [if_neg ha] at hq
      cases hq
    · rename_i c1 hq
      have hd : (x, r) ∈ c1.m.st.txs.reimbursementRequests.toList := by rw [Mem.acquire_m hq]; exact FMap.mem_toList.2 hw
      generalize c1.m.st.txs.reimbursementRequests.toList = l at hd
      cases l with
      | nil => cases hd
      | cons z rest => exact ⟨z.1, z.2, _, rest, _, rfl, hd⟩
  obtain ⟨now, ⟨c, n, hr, rfl⟩ | ⟨e, hr, _⟩⟩ := hs
  · obtain ⟨y, q, l, rest, c', h1, h2⟩ := key now
    rw [h1] at hr
    cases hr
    exact ⟨w.nextId, y, q, l, rest, none, List.mem_append_left _ (List.mem_append_right _ List.mem_cons_self), h2⟩
  · obtain ⟨y, q, l, rest, c', h1, h2⟩ := key now
    rw [h1] at hr; cases hr

theorem recouped {ρ : Nat → World} (h : Endless ρ) {x : ReimbIndex} {r : ReimbRequest} (n : Nat) :
    ∀ {e : Nat}, .reimbursement ∉ (ρ e).mem.active → (∀ j, e ≤ j → (ρ j).mem.m.st.txs.reimbursementRequests.get x = some r) →
      Starts (ρ (e + n)) (ρ (e + n + 1)) .reimbursement → ∃ s, e < s ∧ Recoups (ρ s) x r := by
  induction n with
  | zero =>
    intro e ha hw hs
    exact ⟨e + 1, Nat.lt_succ_self _, hs.recoups ha (hw e (Nat.le_refl _))⟩
  | succ n ih =>
    intro e ha hw hs
    by_cases ha' : .reimbursement ∈ (ρ (e + 1)).mem.active
    · rcases h.step e with he | hst
      · rw [he] at ha'; exact absurd ha' ha
      · exact ⟨e + 1, Nat.lt_succ_self _, ((Step.activates (h.reachable e) hst).2 ha ha').recoups ha (hw e (Nat.le_refl _))⟩
    · rw [show e + (n + 1) = e + 1 + n by omega] at hs
      obtain ⟨s, h1, h2⟩ := ih ha' (fun j hj => hw j (Nat.le_of_succ_le hj)) hs
      exact ⟨s, Nat.lt_of_succ_lt h1, h2⟩

theorem owes {ρ : Nat → World} {N : Nat} (h : Endless ρ) (S : Steady ρ N) (hn : ∀ i, NonceNeverLowered (ρ i).mem.m.log) {x : ReimbIndex}
    {r : ReimbRequest} {i : Nat} (hN : N ≤ i) (hw : (ρ i).mem.m.st.txs.reimbursementRequests.get x = some r) (hc : ∀ j, ¬ (ρ j).Repaid x r)
    {j : Nat} (hj : i ≤ j) : (ρ j).mem.m.st.txs.reimbursementRequests.get x = some r := by
  induction hj with
  | refl => exact hw
  | step hj ih =>
    rename_i k
    rcases h.step k with e | s
    · rw [e]; exact ih
    · rcases Step.owed (h.reachable k) s ih with h1 | h1 | ⟨id, _, t, a, o, h2, h3, h4, h5⟩
      · exact h1
      · exact absurd h1 (hc _)
      · exfalso
        rcases h5 with rfl | ⟨rfl, now, e, h5⟩
        · have hf := S.calm k (Nat.le_trans hN hj) id h4
          exact (List.nodup_append.1 (idInv (h.reachable k)).nodup).2.2 id (List.mem_map.2 ⟨_, h2, rfl⟩) id (List.mem_map.2 ⟨_, hf, rfl⟩) rfl
        · obtain ⟨y, hy⟩ := Option.isSome_iff_exists.1 h3
          obtain ⟨q, l, rest, rfl⟩ := LedgerTask.reimb_eq hy
          obtain ⟨c, n, h6⟩ := reimburse_resume_ok (h.reachable k) (hn k) h2 now
          rw [h6] at h5; cases h5

/-- **C74** (reimbursements): in an execution that is steady from time `N` on, what is owed at some time after `N` is repaid in the end,
if the ledger executes the reimbursement from some time on, and if no upgrade ever lowers the next nonce (see C13). -/
theorem C74_repaid {ρ : Nat → World} {N M : Nat} (h : Endless ρ) (S : Steady ρ N) (hn : ∀ i, NonceNeverLowered (ρ i).mem.m.log)
    {x : ReimbIndex} {r : ReimbRequest} (hl : RepaysFrom ρ M x) {i : Nat} (hN : N ≤ i)
    (hw : (ρ i).mem.m.st.txs.reimbursementRequests.get x = some r) : ∃ j, i ≤ j ∧ (ρ j).Repaid x r := by
  refine Classical.byContradiction fun hno => ?_
  have hc : ∀ j, ¬ (ρ j).Repaid x r := fun j hc => hno ⟨max i j, Nat.le_max_left _ _, repaid_mono h (Nat.le_max_right _ _) hc⟩
  have hw' := fun {j} => owes h S hn hN hw hc (j := j)
  have pause : ∃ e, max i M ≤ e ∧ .reimbursement ∉ (ρ e).mem.active := by
    by_cases ha : .reimbursement ∈ (ρ (max i M)).mem.active
    · obtain ⟨p, hp, hr⟩ := List.mem_flatMap.1 (((lockInv (h.reachable _)).active _).1 ha)
      obtain ⟨id, t, o⟩ := p
      cases t with
      | ext t => cases t <;> simp [Task.running] at hr
      | ledger t =>
        have hd : ∃ x r l rest, t = .reimburse x r l rest := by cases t <;> simp [Task.running] at hr <;> exact ⟨_, _, _, _, rfl⟩
        obtain ⟨x', r', l', rest', rfl⟩ := hd
        obtain ⟨j, hj, h1, _⟩ := reimburse_ends h S hn rest' (by omega) hp
        exact ⟨j + 1, by omega, h1⟩
    · exact ⟨_, Nat.le_refl _, ha⟩
  obtain ⟨e, he, ha⟩ := pause
  obtain ⟨j, hj, hst⟩ := S.interval e
  obtain ⟨s, hs, id, y, q, l, rest, o, hm, hd⟩ := recouped h (j - e) (e := e) ha (fun j hj => hw' (by omega))
    (by rw [show e + (j - e) = j by omega]; exact hst)
  obtain ⟨k, hk, _, h3⟩ := reimburse_ends h S hn rest (by omega) hm
  rcases h3 _ hd with h3 | ⟨k', l', rest', a, h4, h5, h6⟩
  · exact hc _ h3
  · obtain ⟨b, rfl⟩ := hl k' (by omega) id r l' rest' a h5
    exact h6 b rfl

end

namespace Example
attribute [local instance] keccak

/-- The world after `init`. -/
def startWorld (p : World → Bool) : Bool :=
  match State.ofInit initArg with
  | .ok s => p (World.initial minter initArg s [])
  | .error _ => false

theorem startWorld_reachable {p : World → Bool} (h : startWorld p = true) : ∃ w, Reachable w ∧ w.tasks = [] ∧ p w = true := by
  unfold startWorld at h
  split at h
  · rename_i s hs
    exact ⟨_, .init minter initArg s [] hs (by simp), rfl, h⟩
  · cases h

/-- Every waiting deposit is at least the fee. -/
def noSmall (s : State) : Bool := s.eventsToMint.toList.all fun x => match x.2, s.depositNativeFee with
  | .native e, some fee => fee ≤ e.value
  | _, _ => true

theorem noSmall_spec {s : State} (h : noSmall s = true) {src : EventSource} {d : Deposit} (hd : s.eventsToMint.get src = some d) :
    ¬ TooSmall s d := by
  rintro ⟨e, fee, rfl, h1, h2⟩
  have := List.all_eq_true.1 h _ (FMap.mem_toList.2 hd)
  simp only [h1, decide_eq_true_eq] at this
  exact absurd h2 (Nat.not_lt.2 this)

theorem trail_noSmall {w₀ : World} {l : List Action} (h : (trail w₀ l l.length).idle = true)
    (hs : (List.range (l.length + 1)).all (fun i => noSmall (trail w₀ l i).mem.m.st) = true) :
    ∀ i, 0 ≤ i → ∀ src d, (trail w₀ l i).mem.m.st.eventsToMint.get src = some d → ¬ TooSmall (trail w₀ l i).mem.m.st d := by
  intro i _ src d hd
  by_cases hi : i ≤ l.length
  · exact noSmall_spec (List.all_eq_true.1 hs i (List.mem_range.2 (Nat.lt_succ_of_le hi))) hd
  · have := (trail_late h (Nat.le_of_not_le hi)).1
    rw [this] at hd ⊢
    exact noSmall_spec (List.all_eq_true.1 hs l.length (List.mem_range.2 (Nat.lt_succ_self _))) hd

/-- The answers on the way at the times from `M` to the end of the actions are blocks. -/
def accepted (w₀ : World) (l : List Action) (M : Nat) : Bool :=
  (List.range l.length).all fun i => i < M || (trail w₀ l i).tasks.all fun p => match p.answer with
    | some (.block _) | none => true
    | _ => false

theorem accepted_spec {w₀ : World} {l : List Action} {M : Nat} (h : (trail w₀ l l.length).idle = true) (ha : accepted w₀ l M = true) {i : Nat}
    (hi : M ≤ i) {p : Pending} (hp : p ∈ (trail w₀ l i).tasks) {a : LedgerAnswer} (hpa : p.answer = some a) : ∃ b, a = .block b := by
  by_cases hl : i < l.length
  · have h1 := List.all_eq_true.1 ha i (List.mem_range.2 hl)
    simp only [Nat.not_lt.2 hi, decide_false, Bool.false_or] at h1
    have h2 := List.all_eq_true.1 h1 p hp
    rw [hpa] at h2
    cases a with
    | block b => exact ⟨b, rfl⟩
    | refused e => cases h2
    | rejected => cases h2
  · rw [(trail_late h (Nat.le_of_not_lt hl)).2.1] at hp
    cases hp

/-- A deposit whose mint is refused at first, and then executed; logs come in once more. -/
def retrying : List Action := scrapeLogs [nativeLog 6000000000 0] ++ [.start .mint 10, .refuse 0 .temporarilyUnavailable, .deliver 0 11,
  .start .mint 40, .execute 0, .deliver 0 41, .execute 0, .deliver 0 42,
  .start .scrape 600, .answer 0 (.block (some 102)) 601, .answer 0 (.logs (.logs [])) 602, .start .mint 700]

def theDeposit : Deposit := .native ⟨0x21, 101, 0, 7, 6000000000, alice, none⟩

def waitingB (w : World) (d : Deposit) : Bool := w.mem.m.st.eventsToMint.get d.source == some d

/-- Logs are answered with `ls`. -/
def logsComeB (w : World) (ls : List LogEntry) (now : Nat) : Bool :=
  match w.tasks with
  | [⟨_, .ext (.scrape (.querying q)), _⟩] =>
    match (ExtTask.scrape (.querying q)).resume w.mem now (.logs (.logs ls)) with
    | some (.ok _) => true
    | _ => false
  | _ => false

theorem logsCome_of {w₀ : World} {l : List Action} {i now : Nat} {ls : List LogEntry} (hl : l[i]? = some (.answer 0 (.logs (.logs ls)) now))
    (h : logsComeB (trail w₀ l i) ls now = true) : LogsCome (trail w₀ l) i := by
  unfold logsComeB at h
  split at h
  · rename_i id q o ht
    split at h
    · rename_i x hr
      refine ⟨q, ls, [], [], id, o, now, x.1, x.2, ht, hr, ?_⟩
      simp only [trail, hl, Option.getD_some]
      have : World.act (trail w₀ l i) (.answer 0 (.logs (.logs ls)) now) = some ((trail w₀ l i).advance [] [] id x.1 x.2) := by
        simp only [World.act, ht, List.getElem?_cons_zero]
        rw [if_pos (show (ExtAnswer.logs (.logs ls)).Typed from trivial), hr]
        rfl
      rw [this]
      rfl
    · cases h
  · cases h

/-- A steady execution with a deposit whose mint is refused at first: at time 3 it waits and nothing is minted yet; at time 6 no mint is
running, and the ledger executes its mints from then on; later logs come in once more. By `C74_minted` it is credited in the end. -/
theorem C74_example : ∃ ρ, Endless ρ ∧ Steady ρ 0 ∧
    (∀ i, 0 ≤ i → ∀ src d, (ρ i).mem.m.st.eventsToMint.get src = some d → ¬ TooSmall (ρ i).mem.m.st d) ∧ MintsFrom ρ 6 theDeposit ∧
    (ρ 3).mem.m.st.eventsToMint.get theDeposit.source = some theDeposit ∧ (ρ 6).blocks = [] ∧ (ρ 4).Covers theDeposit ∧
    .mint ∉ (ρ 6).mem.active ∧ LogsCome ρ 13 ∧ ∃ j, 3 ≤ j ∧ (ρ j).Credited theDeposit := by
  obtain ⟨w₀, h0, ht, hc⟩ := startWorld_reachable (p := fun w₀ =>
    ((trail w₀ retrying retrying.length).idle &&
      (List.range retrying.length).all (fun i => i < 14 || (trail w₀ retrying i).noExt) &&
      (List.range retrying.length).all (fun i => i < 14 || (trail w₀ retrying i).tasks.isEmpty) &&
      (List.range (retrying.length + 1)).all (fun i => noSmall (trail w₀ retrying i).mem.m.st)) &&
    (accepted w₀ retrying 6 && waitingB (trail w₀ retrying 3) theDeposit && (trail w₀ retrying 6).blocks.isEmpty &&
      !(trail w₀ retrying 6).mem.active.contains .mint &&
      logsComeB (trail w₀ retrying 13) [] 602 && !(trail w₀ retrying 3).mem.active.contains .mint)) (by decide +kernel)
  simp only [Bool.and_eq_true] at hc
  obtain ⟨⟨⟨⟨h1, h2⟩, h3⟩, h4⟩, ⟨⟨⟨⟨h5, h6⟩, h7⟩, h8⟩, h9⟩, h10⟩ := hc
  have E := trail_endless h0 retrying
  have S : Steady (trail w₀ retrying) 0 := trail_steady h1 ht (by decide) (p := 14) (now := 700) rfl h2 (.inr h3)
  have sm := trail_noSmall h1 h4
  have M : MintsFrom (trail w₀ retrying) 6 theDeposit := fun i hi id env sym l amount rest a hm => accepted_spec h1 h5 hi hm rfl
  have wt : (trail w₀ retrying 3).mem.m.st.eventsToMint.get theDeposit.source = some theDeposit := by simpa [waitingB] using h6
  have pause : .mint ∉ (trail w₀ retrying 6).mem.active := by simpa using h8
  have lg : LogsCome (trail w₀ retrying) 13 := logsCome_of rfl h9
  refine ⟨trail w₀ retrying, E, S, sm, M, wt, List.isEmpty_iff.1 h7, ?_, pause, lg,
    C74_minted E S sm M (Nat.zero_le _) wt (e := 6) (k := 13) (by omega) (by omega) pause (by omega) lg⟩
  exact (trail_starts (msg := .mint) (now := 10) trivial rfl).covers (E.reachable 3) (by simpa using h10) (sm 3 (Nat.zero_le _)) wt

/-- A reimbursement that is refused at first, and then executed. -/
def recouping : List Action := owing ++ [.start .reimbursement 20, .refuse 0 .temporarilyUnavailable, .deliver 0 21,
  .start .reimbursement 30, .execute 0, .deliver 0 33, .start .mint 40]

/-- A steady execution with a reimbursement that the ledger refuses at first: at time 13 it is owed, and from time 14 on the ledger
executes it. By `C74_repaid` it is repaid in the end. -/
theorem C74_example_repaid : ∃ ρ r, Endless ρ ∧ Steady ρ 0 ∧ (∀ i, NonceNeverLowered (ρ i).mem.m.log) ∧ RepaysFrom ρ 14 (.native 1) ∧
    (ρ 13).mem.m.st.txs.reimbursementRequests.get (.native 1) = some r ∧ r.reimbursedAmount = 2729990 ∧ ¬ (ρ 13).Repaid (.native 1) r ∧
    ∃ j, 13 ≤ j ∧ (ρ j).Repaid (.native 1) r := by
  obtain ⟨w₀, h0, ht, hc⟩ := startWorld_reachable (p := fun w₀ =>
    ((trail w₀ recouping recouping.length).idle &&
      (List.range recouping.length).all (fun i => i < 16 || (trail w₀ recouping i).noExt) &&
      (List.range recouping.length).all (fun i => i < 16 || (trail w₀ recouping i).tasks.isEmpty)) &&
    (accepted w₀ recouping 14 &&
      (List.range (recouping.length + 1)).all (fun i => (trail w₀ recouping i).mem.m.log.all fun | .upgrade _ => false | _ => true) &&
      ((trail w₀ recouping 13).mem.m.st.txs.reimbursementRequests.get (.native 1)).any (fun r => r.reimbursedAmount == 2729990) &&
      (trail w₀ recouping 13).blocks.all (fun b => match b.call.op with | .mint _ _ => false | _ => true))) (by decide +kernel)
  simp only [Bool.and_eq_true] at hc
  obtain ⟨⟨⟨h1, h2⟩, h3⟩, ⟨⟨h4, h5⟩, h6⟩, h7⟩ := hc
  have E := trail_endless h0 recouping
  have S : Steady (trail w₀ recouping) 0 := trail_steady h1 ht (by decide) (p := 16) (now := 40) rfl h2 (.inr h3)
  have N : ∀ i, NonceNeverLowered (trail w₀ recouping i).mem.m.log := by
    have key : ∀ i, i ≤ recouping.length → NonceNeverLowered (trail w₀ recouping i).mem.m.log := by
      intro i hi l₁ a l₂ n hl _
      have := List.all_eq_true.1 h5 i (List.mem_range.2 (Nat.lt_succ_of_le hi))
      have := List.all_eq_true.1 this (.upgrade a) (by rw [hl]; simp)
      cases this
    intro i
    by_cases hl : i ≤ recouping.length
    · exact key i hl
    · rw [(trail_late h1 (Nat.le_of_not_le hl)).1]
      exact key _ (Nat.le_refl _)
  have M : RepaysFrom (trail w₀ recouping) 14 (.native 1) := fun i hi id r l rest a hm => accepted_spec h1 h4 hi hm rfl
  obtain ⟨r, hr, hr'⟩ : ∃ r, (trail w₀ recouping 13).mem.m.st.txs.reimbursementRequests.get (.native 1) = some r ∧
      (r.reimbursedAmount == 2729990) = true := by
    cases hg : (trail w₀ recouping 13).mem.m.st.txs.reimbursementRequests.get (.native 1) with
    | none => rw [hg] at h6; cases h6
    | some r => rw [hg] at h6; exact ⟨r, rfl, h6⟩
  refine ⟨trail w₀ recouping, r, E, S, N, M, hr, by simpa using hr', ?_, C74_repaid E S N M (Nat.zero_le _) hr⟩
  rintro ⟨b, hb, hb'⟩
  have := List.all_eq_true.1 h7 b hb
  rw [hb'] at this
  cases this

/-- Two deposits; the second comes in while the first is being minted. Both timers for minting fire during that mint. -/
def overtaken : List Action := scrapeLogs [nativeLog 6000000000 0] ++ [.start .mint 10,
  .start .scrape 600, .answer 1 (.block (some 102)) 601,
  .answer 1 (.logs (.logs [{ nativeLog 7000000000 1 with blockNumber := some 102 }])) 602, .start .mint 603,
  .execute 0, .deliver 0 604, .execute 0, .deliver 0 605]

def lateDeposit : Deposit := .native ⟨0x21, 102, 1, 7, 7000000000, alice, none⟩

/-- The condition on logs cannot be dropped: a deposit that is registered while a mint is running waits for ever if no more logs come
in, although all timers fire, no call fails and nothing else goes on. -/
theorem C74_waits : ∃ ρ, Endless ρ ∧ Steady ρ 0 ∧
    (∀ i, 0 ≤ i → ∀ src d, (ρ i).mem.m.st.eventsToMint.get src = some d → ¬ TooSmall (ρ i).mem.m.st d) ∧ MintsFrom ρ 0 lateDeposit ∧
    ∀ i, 7 ≤ i → (ρ i).mem.m.st.eventsToMint.get lateDeposit.source = some lateDeposit ∧ (12 ≤ i → (ρ i).tasks = []) := by
  obtain ⟨w₀, h0, ht, hc⟩ := startWorld_reachable (p := fun w₀ =>
    ((trail w₀ overtaken overtaken.length).idle &&
      (List.range overtaken.length).all (fun i => i < 7 || (trail w₀ overtaken i).noExt) &&
      (List.range (overtaken.length + 1)).all (fun i => noSmall (trail w₀ overtaken i).mem.m.st)) &&
    (accepted w₀ overtaken 0 &&
      (List.range (overtaken.length + 1)).all (fun i => i < 7 || waitingB (trail w₀ overtaken i) lateDeposit))) (by decide +kernel)
  simp only [Bool.and_eq_true] at hc
  obtain ⟨⟨⟨h1, h2⟩, h3⟩, h4, h5⟩ := hc
  refine ⟨trail w₀ overtaken, trail_endless h0 _, trail_steady h1 ht (by decide) (p := 7) (now := 603) rfl h2 (.inl (by decide)), trail_noSmall h1 h3,
    fun i hi id env sym l amount rest a hm => accepted_spec h1 h4 hi hm rfl, fun i hi => ⟨?_, fun hl => (trail_late h1 hl).2.1⟩⟩
  have key : ∀ i, 7 ≤ i → i ≤ overtaken.length → (trail w₀ overtaken i).mem.m.st.eventsToMint.get lateDeposit.source = some lateDeposit := by
    intro i hi hl
    have := List.all_eq_true.1 h5 i (List.mem_range.2 (Nat.lt_succ_of_le hl))
    simpa [waitingB, Nat.not_lt.2 hi] using this
  by_cases hl : i ≤ overtaken.length
  · exact key i hi hl
  · rw [(trail_late h1 (Nat.le_of_not_le hl)).1]
    exact key overtaken.length (by decide) (Nat.le_refl _)

end Example
end EvmMinter
