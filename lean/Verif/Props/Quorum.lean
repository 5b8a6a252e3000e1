import Verif.Props.NetworkTogether

/-! C104: members of which nothing is heard do not stop the others from signing. -/
namespace Verif.Props.KeyStart
open Verif.Prot Verif.Layout Verif.Dto Verif.Dss Verif.Dkg Verif.Point Verif.Signode Verif.Tables Verif.Start Verif.Network Verif.Props
open Verif.Spec.Generation
open Verif.Props.Start
variable {ι K : Type}

/-- C104 (any quorum). Let processes make long-term keys together as in C103, with shares of one key. Then any set `A` of them with at least as many
guests as the threshold can sign without the others, which need not even be started: when those in `A` are started again with their files, with a
network that works between them and with nothing late, they have printed one signature for all their guests 650 ms after the start of a request,
and it verifies under the key that all of them made. -/
theorem C104_any_quorum [DecidableEq ι] {t : Cast ι K} {i n : Nat} {d : Int} (ht : Together t i n d) {ks : List Pt}
    (hwi : Wired t.a t.entries t.st ks) {h0 : List (Network.Ev ι Verif.KeyProgram.Ev)} (ho : t.Online (idOf d i) h0) {net : Net} (hn : Proper net n)
    (hg : Spec.KeyProgram.Generating t.crew net n (idOf d i)) (hs : Spec.KeyProgram.Savable net n)
    (hne : ∀ p, (t.st p).guests.keys ≠ []) (hq : ∀ p, Spec.KeyProgram.Settled (keyCfg (t.st p) (t.rest p)) (t.s p))
    {ls : List Nat} (hls : ∀ x < n, IsShare ls x (net.key x)) {T : Int} (hth : ∀ p, (t.st p).threshold = T) (hlong : (ls.length : Int) ≤ T) :
    ∃ f : ι → GoMap Int DksDTO, (∀ p, (t.s p).file = some (f p)) ∧
      ∀ (A : Finset ι) (w : A → World K) (time : A → String) (_ : ∀ p : A, Again (t.w p) (w p) (time p)),
        ∃ st : A → Started, (∀ p : A, start (w p) (signCmd (t.a p) (f p) (time p)) = .ok (st p) ∧ (st p).guests = (t.st p).guests) ∧
          ∀ (rest : A → Rest K) (h : A → List Program.Ev) (s : A → Program.Sys K) (j : Job) (rs : List Nat) (net' : Net)
            (H : List UInt8 → List UInt8) (SH : Share → List UInt8) (_ : ∀ b, (H b).length = 32) (_ : ∀ p, (rest p).H = H ∧ (rest p).SH = SH)
            (_ : ∀ p, InTime (programCfg (st p) (rest p)) (h p) (s p) j) (_ : rs ≠ [] ∧ (rs.length : Int) ≤ T) (_ : 0 ≤ j.doc ∧ j.doc < 2 ^ 256)
            (S : List Nat) (_ : S.Nodup) (_ : T ≤ S.length) (_ : ∀ x ∈ S, ∃ p ∈ A, x ∈ (t.st p).guests.keys)
            (_ : Program.Generating ⟨jobId j, ks, T, ls, rs, j.doc⟩ net' ((t.again (Subtype.val : A → ι) f w time st rest h s).all j))
            (h1 : List (Network.Ev A Program.Ev)) (_ : (t.again (Subtype.val : A → ι) f w time st rest h s).Online j h1),
            ∃ sig, Schnorr.verify H (.pt (timesAdd base (ls.headD 0))) j.doc sig = .ok () ∧
              ∀ p : A, ∃ b ∈ (s p).jobs, b.job = j ∧ b.pc = .ended ∧
                b.lines.Perm ((t.st p).guests.keys.map fun x : Nat => ((x : Int), some sig)) := by
  obtain ⟨f, hf, hrest⟩ := C103_end_to_end ht hwi ho hn hg hs hne hq hls hth hlong
  refine ⟨f, hf, fun A w time hag => ?_⟩
  obtain ⟨st, hst, hsig⟩ := hrest (Subtype.val : A → ι) Subtype.val_injective w time hag
  exact ⟨st, hst, fun rest h s j rs net' H SH h32 hH hin hrs hdoc S hSn hST hSg hgen h1 ho1 =>
    hsig rest h s j rs net' H SH h32 hH hin hrs hdoc S hSn hST (fun x hx => by
      obtain ⟨p, hp, hpx⟩ := hSg x hx
      exact ⟨⟨p, hp⟩, hpx⟩) hgen h1 ho1⟩

end Verif.Props.KeyStart
