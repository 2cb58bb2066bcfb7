import Verif.WalId.Model
/-!
# What C114 says

The id that counts is the one noted last, `0` if none was.
-/
namespace Verif.WalId

/-- The id noted last in `ops`, where `old` was noted before. -/
def noted (old : Nat) : List Op → Nat
  | [] => old
  | .note id :: ops => noted id ops
  | _ :: ops => noted old ops

/-- All ids are of 64 bits. -/
def Fit (ops : List Op) : Prop := ∀ id, Op.note id ∈ ops → id < 2 ^ 64

/-- A program that has just started: its file after `ops` is opened and the id is asked for. -/
def asked (ops : List Op) : Nat := (File.open (run (.open []) ops).bytes).load.1

/-- The same if it stopped while `id` was noted after `ops`, with `k` bytes of its text written. -/
def askedStopped (ops : List Op) (id k : Nat) : Nat := (File.open ((run (.open []) ops).stopped id k)).load.1

/-- **C114**, in full: a load answers with the id noted last, whenever it is asked, and if the program stops while an id is
noted it is that one or the one before. -/
def C114_noted_claim : Prop :=
  (∀ ops, Fit ops → (run (.open []) ops).load.1 = noted 0 ops) ∧
  ∀ ops id k, Fit ops → id < 2 ^ 64 → noted 0 ops ≤ id → askedStopped ops id k = noted 0 ops ∨ askedStopped ops id k = id

end Verif.WalId
