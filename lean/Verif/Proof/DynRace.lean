import Verif.Proof.DynStale
import Verif.Proof.KeyRace

/-!
# Proofs: goroutines that share a key store whose reads may be old
-/

namespace RangeDB.Race

open RangeDB.Key RangeDB.Cry

variable {σ : Type}

/-- The changes that calls make, as far as subject `s` is concerned. -/
def FixR (inv : σ → Prop) (has : σ → Str → Str → Prop) (s : Str) (m m' : σ) : Prop :=
  (inv m → inv m') ∧ ∀ k, inv m → has m s k → has m' s k

theorem fixR_pre (inv : σ → Prop) (has : σ → Str → Str → Prop) (s : Str) : Pre (FixR inv has s) :=
  ⟨fun _ => ⟨id, fun _ _ h => h⟩, fun _ _ _ h1 h2 =>
    ⟨fun h => h2.1 (h1.1 h), fun k hi h => h2.2 k (h1.1 hi) (h1.2 k hi h)⟩⟩

section
variable {K : Store σ} {inv : σ → Prop} {has : σ → Str → Str → Prop} {ok : Key.Call → Prop} (hK : Fixed K inv has ok)
  (s : Str) {enc : Encryptor}

include hK

theorem Fixed.rel (m : σ) (c : Key.Call) (hc : ok c) : FixR inv has s m (K.call m c).1 :=
  ⟨hK.stays m c hc, fun k hi h => hK.keeps m s k c hc hi h⟩

/-- What a successful call tells: an encryption or a decryption for `s` used the one key of `s`. -/
def Used (inv : σ → Prop) (has : σ → Str → Str → Prop) (enc : Encryptor) (s : Str) (c : Call) (m : σ) (r : Cry.R) : Prop :=
  match c, r with
  | .encrypt x data _ tape, .ok cipher => x = s → ∃ k, inv m ∧ has m s k ∧ (enc.encrypt k data tape).1 = .ok cipher
  | .decrypt x cipher, .ok plain => x = s → ∃ k, inv m ∧ has m s k ∧ enc.decrypt k cipher = .ok plain
  | _, _ => True

theorem Fixed.get_safe (m : σ) (x : Str) (hm : inv m) :
    Safe (FixR inv has s) (fun m' r => inv m' ∧ (r.2 = none → x = s → has m' s r.1)) m ((atomic K).get x) := by
  refine Safe.atom (fun m' hm' => ⟨Fixed.rel hK s m' (.get x) (hK.plain x), fun n hn => ?_⟩)
  have hi := hm'.1 hm
  have hi1 := hK.invGet m' x hi
  refine ⟨hn.1 hi1, fun h hx => ?_⟩
  subst hx
  exact hn.2 _ hi1 (hK.got m' x _ hi (Prod.ext rfl h))

theorem Fixed.set_safe (m : σ) (x k : Str) (hm : inv m) :
    Safe (FixR inv has s) (fun m' e => inv m' ∧ (e = none → x = s → has m' s k)) m ((atomic K).set x k) := by
  refine Safe.atom (fun m' hm' => ⟨Fixed.rel hK s m' (.set x k) (hK.plainS x k), fun n hn => ?_⟩)
  have hi := hm'.1 hm
  have hi1 := hK.invSet m' x k hi
  refine ⟨hn.1 hi1, fun h hx => ?_⟩
  subst hx
  exact hn.2 _ hi1 (hK.set m' x k hi h)

theorem Fixed.prog_safe (c : Call) (hc : ∀ now x, c = .delete now x → ok (.delete now x)) (m : σ) (hm : inv m) :
    Safe (FixR inv has s) (Used inv has enc s c) m (prog (atomic K) enc c) := by
  have pre := fixR_pre inv has s
  have enc_ret : ∀ (m : σ) (x data raw tape k : Str), inv m → (x = s → has m s k) →
      Safe (FixR inv has s) (Used inv has enc s (.encrypt x data raw tape)) m (.ret (enc.encrypt k data tape).1) := by
    intro m x data raw tape k hi h m' hm'
    unfold Used
    cases hr : (enc.encrypt k data tape).1 with
    | ok cipher => exact fun hx => ⟨k, hm'.1 hi, hm'.2 k hi (h hx), hr⟩
    | err e => trivial
    | panic => trivial
  have err_ret : ∀ (c : Call) (m : σ) (e : KErr), Safe (FixR inv has s) (Used inv has enc s c) m (.ret (.err e)) := by
    intro c m e m' _
    cases c <;> trivial
  cases c with
  | encrypt x data raw tape =>
    refine Safe.bind pre (Fixed.get_safe hK s m x hm) (fun m' r hm' hr => ?_)
    split
    · rename_i h
      exact enc_ret m' x data raw tape r.1 hr.1 (hr.2 h)
    · refine Safe.bind pre (Fixed.set_safe hK s m' x (b64enc raw) hr.1) (fun m'' e hm'' he => ?_)
      split
      · exact enc_ret m'' x data raw tape _ he.1 (he.2 rfl)
      · exact err_ret _ _ _
    · exact err_ret _ _ _
  | decrypt x cipher =>
    refine Safe.bind pre (Fixed.get_safe hK s m x hm) (fun m' r hm' hr => ?_)
    split
    · rename_i h
      intro n hn
      unfold Used
      cases hd : enc.decrypt r.1 cipher with
      | ok plain => exact fun hx => ⟨r.1, hn.1 hr.1, hn.2 _ hr.1 (hr.2 h hx), hd⟩
      | err e => trivial
      | panic => trivial
    · exact err_ret _ _ _
  | get x =>
    refine Safe.bind pre (Fixed.get_safe hK s m x hm) (fun m' r hm' hr => ?_)
    split <;> exact fun _ _ => trivial
  | set x k => exact Safe.bind pre (Fixed.set_safe hK s m x k hm) (fun m' r _ _ => fun _ _ => trivial)
  | delete now x =>
    refine Safe.bind pre (Q := fun _ _ => True) ?_ (fun m' r _ _ => fun _ _ => trivial)
    exact Safe.atom (fun m' _ => ⟨Fixed.rel hK s m' (.delete now x) (hc now x rfl), fun _ _ => trivial⟩)

/-- An encryption and a decryption of its result, whenever they run. -/
theorem Fixed.main (hu : ∀ m k k', inv m → has m s k → has m s k' → k = k') (he : enc.Lawful) {m0 : σ} (h0 : inv m0)
    (calls : Nat → Call) (hc : ∀ n now x, calls n = .delete now x → ok (.delete now x)) (sched : List Nat) (i j : Nat)
    (data raw tape cipher plain : Str) (hdata : Bytes data) (htape : Bytes tape)
    (hi : calls i = .encrypt s data raw tape) (hj : calls j = .decrypt s cipher)
    (hfi : ((Sys.init (atomic K) enc m0 calls).run sched).Finished i (.ok cipher))
    (hfj : ((Sys.init (atomic K) enc m0 calls).run sched).Finished j (.ok plain)) : plain = data := by
  have pre := fixR_pre inv has s
  have h1 := (run_safe pre (Q := fun n => Used inv has enc s (calls n)) sched (Sys.init (atomic K) enc m0 calls)
    (fun n => Fixed.prog_safe hK s (calls n) (hc n) m0 h0)).1
  have a := h1 i
  have b := h1 j
  rw [show ((Sys.init (atomic K) enc m0 calls).run sched).threads i = .ret (.ok cipher) from hfi, hi] at a
  rw [show ((Sys.init (atomic K) enc m0 calls).run sched).threads j = .ret (.ok plain) from hfj, hj] at b
  obtain ⟨k, hinv, hk, hek⟩ := a _ (pre.refl _) rfl
  obtain ⟨k', _, hk', hdk⟩ := b _ (pre.refl _) rfl
  obtain rfl := hu _ _ _ hinv hk hk'
  have := he.roundTrip k data tape cipher _ hdata htape (Prod.ext hek rfl)
  rw [this] at hdk
  exact (Cry.R.ok.inj hdk).symm

end

end RangeDB.Race
