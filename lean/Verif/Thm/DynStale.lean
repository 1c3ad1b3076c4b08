import Verif.Proof.DynRace
import Verif.Thm.Crypto
import Verif.Thm.KeyRace

/-!
# The DynamoDB key store with eventually consistent reads (C119)
-/

namespace RangeDB.Cry

open Key

/-! ## Specification -/

/-- After a deletion of `s` has returned, every read of the key of `s` says that it was deleted. -/
def Gone {σ : Type} (K : Store σ) (m0 : σ) : Prop :=
  ∀ (before after : List Call) (now : Nat) (s : Str), (∀ c ∈ before ++ after, Timed c) → 0 < now →
    let m := (K.run m0 before).1
    (K.delete m now s).2 = none →
    (K.get (K.run (K.delete m now s).1 after).1 s).2 = ([], some .wasDeleted)

/-- The full statement of **C119**: a deletion takes effect at once, and encrypted events can be decrypted, for every delay
of the reads. -/
def C119_full : Prop :=
  ∀ lags : List Nat, Gone dynOld (DynOld.new lags) ∧
    ∀ enc : Encryptor, enc.Lawful → Restores dynOld (DynOld.new lags) enc

/-! ## What does not hold -/

/-- **C119** is false: a read after the deletion still returns the key. -/
theorem C119_false : ¬ Gone dynOld (DynOld.new [1]) := by
  intro h
  have := h [.set [97] [9]] [] 5 [97] (by intro c hc now s e; simp at hc; subst hc; cases e) (by decide) rfl
  revert this
  decide

theorem C119_false_full : ¬ C119_full := fun h => C119_false (h [1]).1

/-- **C119**, an event with two personal fields, of a subject that is new: its first field creates the key, for the second
field the store says that there is no key and then that there is one, and `Encrypt` fails. -/
theorem C119_first_event :
    (genEncrypt dynOld (gcm toyAead) ⟨DynOld.new [0, 1], tape0 96, tape0 96⟩ ev28).2 = some (ev28, some .exists) := by
  decide +kernel

/-- **C119**, an event that was encrypted cannot be decrypted right away. -/
theorem C119_unread : ¬ Restores dynOld (DynOld.new [0, 1]) (gcm toyAead) := by
  intro h
  have h := h (tape0 96) (tape0 96) [] [] ev28b _ (tape0_bytes _ (by decide)) (tape0_bytes _ (by decide))
    (by intro f hf; simp only [ev28b, List.mem_singleton] at hf; subst hf; intro b hb; simp at hb; omega)
    (by intro i hi; simp [ev28b] at hi) rfl (by intro now h; simp at h) rfl
  revert h
  decide +kernel

/-! ## What holds -/

/-- **C119**, partial: whatever the reads return, decryption never yields anything but the event that was encrypted, whatever
calls, deletions among them, are made in between. Missing: `C119_unread`. -/
theorem C119_partial (lags : List Nat) (enc : Encryptor) (he : enc.Lawful) (keys nonces : Str) (before after : List Op)
    (e e' d : PEvent) (hk : Bytes keys) (hn : Bytes nonces) (hs : ∀ f ∈ e.strs, Bytes f)
    (hr : ∀ i ∈ e.ints, -(2 ^ 63) ≤ i ∧ i < 2 ^ 63) (hser : e.sers = e.ints.map (fun _ => []))
    (ht : ∀ c, Op.call c ∈ before ++ after → Timed c) :
    let w := opRun dynOld enc ⟨DynOld.new lags, keys, nonces⟩ before
    (genEncrypt dynOld enc w e).2 = some (e', none) →
    (genDecrypt dynOld enc (opRun dynOld enc (genEncrypt dynOld enc w e).1 after) e').2 = some (d, none) → d = e := by
  intro w h1 h2
  have hK := dynOld_fixed
  have hw : OldInv w.ks ∧ w.nonceTape <:+ nonces := by
    refine opRun_inv (K := dynOld) (enc := enc) (fun w => OldInv w.ks ∧ w.nonceTape <:+ nonces)
      (fun w x d h => ⟨hK.encryptInv w x d h.1, (engineEncrypt_tapes he w x d).2.trans h.2⟩)
      (fun w x d h => ⟨engineDecrypt_ks OldInv (fun m y h => hK.invGet m y h) w x d h.1, by
        rw [(engineDecrypt_tapes w x d).2]; exact h.2⟩) Timed
      (fun w c hc h => ⟨hK.stays w.ks c hc h.1, h.2⟩) _ before
      (fun c hc => ht c (List.mem_append_left _ hc)) ⟨oldInv_new lags, List.suffix_refl _⟩
  exact hK.restores he w after e e' d (oldHas_one e.subject) hw.1 (hn.suffix hw.2) hs hr hser
    (fun c hc => ht c (List.mem_append_right _ hc)) h1 h2

theorem run_inv {calls : List Call} (ht : ∀ c ∈ calls, Timed c) : ∀ {t : DynOld}, OldInv t →
    OldInv (dynOld.run t calls).1 := by
  induction calls with
  | nil => intro t h; exact h
  | cons c cs ih =>
    intro t h
    exact ih (fun x hx => ht x (List.mem_cons_of_mem _ hx)) (dynOld_fixed.stays t c (ht c (by simp)) h)

theorem run_has {calls : List Call} (ht : ∀ c ∈ calls, Timed c) {s k : Str} : ∀ {t : DynOld}, OldInv t → OldHas t s k →
    OldHas (dynOld.run t calls).1 s k := by
  induction calls with
  | nil => intro t _ h; exact h
  | cons c cs ih =>
    intro t hi h
    exact ih (fun x hx => ht x (List.mem_cons_of_mem _ hx)) (dynOld_fixed.stays t c (ht c (by simp)) hi)
      (dynOld_fixed.keeps t s k c (ht c (by simp)) hi h)

/-- **C119**, two reads of a subject's key, however far apart and however old, never return two different keys. -/
theorem C119_one_key (lags : List Nat) (before after : List Call) (ht : ∀ c ∈ before ++ after, Timed c) (s k k' : Str) :
    let m := (dynOld.run (DynOld.new lags) before).1
    (dynOld.get m s).2 = (k, none) → (dynOld.get (dynOld.run (dynOld.get m s).1 after).1 s).2 = (k', none) → k = k' := by
  intro m h1 h2
  have hi := run_inv (fun c hc => ht c (List.mem_append_left _ hc)) (oldInv_new lags)
  have ha := dynOld_fixed.got m s k hi h1
  have hi1 := dynOld_fixed.invGet m s hi
  have hA := fun c hc => ht c (List.mem_append_right before hc)
  exact (dynOld_fixed.one _ s k k' (run_inv hA hi1) (run_has hA hi1 ha) h2).symm

/-- The current item of a subject. -/
def current (t : DynOld) (s : Str) : Option Item := (t.versions s).getLast?

theorem current_upd (t : DynOld) (s : Str) (v : List Item) (l : List Nat) :
    current ⟨upd t.versions s v, l⟩ = upd (current t) s v.getLast? := by
  funext x
  simp only [current, upd]
  by_cases hx : x = s <;> simp [hx]

theorem call_current (t : DynOld) (c : Call) : current (dynOld.call t c).1 = (dyn.call (current t) c).1 ∧
    ((∀ s, c ≠ .get s) → (dynOld.call t c).2 = (dyn.call (current t) c).2) ∧
    (t.lags = [] → (dynOld.call t c).2 = (dyn.call (current t) c).2 ∧ (dynOld.call t c).1.lags = []) := by
  cases c with
  | get s =>
    refine ⟨?_, fun h => absurd rfl (h s), fun h => ⟨?_, ?_⟩⟩
    · have h1 : (dyn.call (current t) (.get s)).1 = current t := by
        simp only [Store.call, dyn, Dyn.get]
        split
        · rfl
        · split <;> rfl
      rw [h1]
      funext x
      simp only [current, Store.call, dynOld, dynOld_versions_get]
    · simp only [Store.call, dynOld, DynOld.get, h, List.headD_nil, Nat.sub_zero, List.take_length, dyn, Dyn.get, current]
      cases (t.versions s).getLast? with
      | none => rfl
      | some i => simp only; split <;> rfl
    · simp only [Store.call, dynOld, DynOld.get, h, List.tail_nil]
      split
      · rfl
      · split <;> rfl
  | set s k =>
    have he : (t.versions s ≠ []) ↔ (current t s).isSome = true := by
      simp only [current]
      cases hv : t.versions s with
      | nil => simp
      | cons a b => simp [List.getLast?_cons]
    simp only [Store.call, dynOld, DynOld.set, dyn, Dyn.set]
    by_cases hk : k = []
    · simp [hk]
    · by_cases hv : t.versions s ≠ []
      · simp [hk, hv, he.mp hv]
      · rw [if_neg hk, if_neg hk, if_neg hv, if_neg (fun h => hv (he.mpr h))]
        exact ⟨current_upd _ _ _ _, fun _ => rfl, fun h => ⟨rfl, h⟩⟩
  | delete now s =>
    simp only [Store.call, dynOld, DynOld.delete, dyn, Dyn.delete]
    refine ⟨?_, fun _ => trivial, fun h => ⟨trivial, h⟩⟩
    rw [current_upd]
    simp

/-- **C119**, the writes: for every delay of the reads, `Set` and `Delete` return what they return with consistent reads, and
with reads that are up to date every call does. -/
theorem C119_writes (lags : List Nat) (calls : List Call) :
    ((dynOld.run (DynOld.new lags) calls).2.filter (fun c => match c.1 with | .get _ => false | _ => true)) =
      ((dyn.run (fun _ => none) calls).2.filter (fun c => match c.1 with | .get _ => false | _ => true)) ∧
    (dynOld.run (DynOld.new []) calls).2 = (dyn.run (fun _ => none) calls).2 := by
  have key : ∀ (calls : List Call) (t : DynOld),
      ((dynOld.run t calls).2.filter (fun c => match c.1 with | .get _ => false | _ => true)) =
        ((dyn.run (current t) calls).2.filter (fun c => match c.1 with | .get _ => false | _ => true)) ∧
      (t.lags = [] → (dynOld.run t calls).2 = (dyn.run (current t) calls).2) := by
    intro calls
    induction calls with
    | nil => intro t; exact ⟨rfl, fun _ => rfl⟩
    | cons c cs ih =>
      intro t
      obtain ⟨h1, h2, h3⟩ := call_current t c
      obtain ⟨i1, i2⟩ := ih (dynOld.call t c).1
      rw [h1] at i1 i2
      simp only [Store.run, List.filter_cons]
      refine ⟨?_, fun h => ?_⟩
      · rw [i1]
        cases c with
        | get s => rfl
        | set s k => rw [h2 (by simp)]
        | delete now s => rw [h2 (by simp)]
      · rw [(h3 h).1, i2 (h3 h).2]
  have e : current (DynOld.new lags) = fun _ => none := by funext s; rfl
  have e' : current (DynOld.new []) = fun _ => none := by funext s; rfl
  exact ⟨e ▸ (key calls (DynOld.new lags)).1, e' ▸ (key calls (DynOld.new [])).2 rfl⟩

/-- **C119**, goroutines: whatever calls run at the same time, deletions of the subject among them, and however old their reads
are, a decryption that succeeds on what an encryption returned yields the plain text. -/
theorem C119_race (lags : List Nat) (enc : Encryptor) (he : enc.Lawful) (calls : Nat → Race.Call)
    (ht : ∀ n now x, calls n = .delete now x → 0 < now) (sched : List Nat) (i j : Nat)
    (s data raw tape cipher plain : Str) (hdata : Bytes data) (htape : Bytes tape)
    (hi : calls i = .encrypt s data raw tape) (hj : calls j = .decrypt s cipher)
    (hfi : ((Race.Sys.init (Race.atomic dynOld) enc (DynOld.new lags) calls).run sched).Finished i (.ok cipher))
    (hfj : ((Race.Sys.init (Race.atomic dynOld) enc (DynOld.new lags) calls).run sched).Finished j (.ok plain)) :
    plain = data :=
  Race.Fixed.main dynOld_fixed s (oldHas_one s) he (oldInv_new lags) calls
    (fun n now x h now' x' e => by cases e; exact ht n _ _ h) sched i j data raw tape cipher plain hdata htape hi hj hfi hfj

/-- Two encryptions for a new subject that run at the same time, the second told that there is no key: it fails; what the first
returned is decrypted. -/
example :
    let y := (Race.Sys.init (Race.atomic dynOld) (gcm Race.keyedAead) (DynOld.new [0, 0, 1]) (Race.raceCalls Race.raceCipher)).run
      [0, 1, 0, 1, 2]
    y.Finished 0 (.ok Race.raceCipher) ∧ y.Finished 1 (.err .exists) := ⟨rfl, rfl⟩

/-- The hypotheses of `C119_race` are met: the decryption of the same history with an up-to-date read succeeds. -/
example :
    let y := (Race.Sys.init (Race.atomic dynOld) (gcm Race.keyedAead) (DynOld.new [0, 0, 0]) (Race.raceCalls Race.raceCipher)).run
      [0, 1, 0, 1, 2]
    y.Finished 0 (.ok Race.raceCipher) ∧ y.Finished 2 (.ok [72, 105]) := ⟨rfl, rfl⟩

/-- Reads that are one and two versions old: the deletion of `[97]` is seen by the third read only; the subject gets no
second key. -/
example : (dynOld.run (DynOld.new [0, 1, 2, 0])
      [.set [97] [9], .get [97], .delete 5 [97], .get [97], .get [97], .get [97], .set [97] [8]]).2.map Prod.snd =
    [⟨[], none⟩, ⟨[9], none⟩, ⟨[], none⟩, ⟨[9], none⟩, ⟨[], some .notFound⟩, ⟨[], some .wasDeleted⟩, ⟨[], some .exists⟩] := by
  decide

/-- An event is encrypted, its subject deleted, and a read that is one version old still decrypts it. -/
example :
    let w := (⟨DynOld.new [0, 1], tape0 96, tape0 96⟩ : World DynOld)
    ∃ e', (genEncrypt dynOld (gcm toyAead) w ev28b).2 = some (e', none) ∧
      (genDecrypt dynOld (gcm toyAead) (opRun dynOld (gcm toyAead) (genEncrypt dynOld (gcm toyAead) w ev28b).1
        [.call (.delete 5 [1])]) e').2 = some (ev28b, none) := by
  refine ⟨_, rfl, by decide +kernel⟩

end RangeDB.Cry
