/-! # Memory lent to the kernel

Specification for C87, independent of the models: what a program may do with memory while the kernel may still read or write it. -/

namespace Verif.Lend

/-- What happens, in order. Each allocation has a number of its own. -/
inductive Ev where
  /-- `n` bytes of memory are allocated -/
  | alloc (b n : Nat)
  | free (b : Nat)
  /-- the program reads or writes bytes of `b` -/
  | touch (b : Nat)
  /-- request `id` is put on the disk channel `c`: a read into (`w = false`) or a write from `b`, of `len` bytes -/
  | add (c id : Nat) (w : Bool) (b len : Nat)
  | flush (c id : Nat)
  /-- answers are collected from channel `c`: numbers of requests, and whether they succeeded -/
  | poll (c : Nat) (rs : List (Nat × Bool))
  /-- the kernel moves bytes from or to the memory of request `id` of channel `c` -/
  | kern (c id : Nat)

/-- What is allocated, and which requests are unanswered, with the memory and the number of bytes they were given (none for a
flush). -/
structure Ledger where
  size : Nat → Option Nat
  lent : Nat → Nat → Option (Option (Nat × Nat))

def Ledger.empty : Ledger := ⟨fun _ => none, fun _ _ => none⟩

def Ledger.next (k : Ledger) : Ev → Ledger
  | .alloc b n => { k with size := fun x => if x = b then some n else k.size x }
  | .free b => { k with size := fun x => if x = b then none else k.size x }
  | .add c id _ b len => { k with lent := fun c' i => if c' = c ∧ i = id then some (some (b, len)) else k.lent c' i }
  | .flush c id => { k with lent := fun c' i => if c' = c ∧ i = id then some none else k.lent c' i }
  | .poll c rs => { k with lent := fun c' i => if c' = c ∧ i ∈ rs.map Prod.fst then none else k.lent c' i }
  | .touch _ => k
  | .kern _ _ => k

def ledger (tr : List Ev) : Ledger := tr.foldl Ledger.next .empty

/-- The kernel has no unanswered request with the memory `b`. -/
def Ledger.quiet (k : Ledger) (b : Nat) : Prop := ∀ c id len, k.lent c id ≠ some (some (b, len))

/-- What the program may do: use, free and hand in only memory that is allocated and not lent, hand it in for no more bytes than it
has, and give no request the number of an unanswered one. -/
def Ledger.allows (k : Ledger) : Ev → Prop
  | .alloc b _ => k.size b = none
  | .free b => k.size b ≠ none ∧ k.quiet b
  | .touch b => k.size b ≠ none ∧ k.quiet b
  | .add c id _ b len => (∃ n, k.size b = some n ∧ len ≤ n) ∧ k.quiet b ∧ k.lent c id = none
  | .flush c id => k.lent c id = none
  | .poll _ _ => True
  | .kern _ _ => True

/-- The program does only what it may, all along. -/
def Keeps (tr : List Ev) : Prop := ∀ pre e post, tr = pre ++ e :: post → (ledger pre).allows e

/-- The channels answer only unanswered requests, each once. -/
def Answers (tr : List Ev) : Prop :=
  ∀ pre c rs post, tr = pre ++ .poll c rs :: post → (rs.map Prod.fst).Nodup ∧ ∀ r ∈ rs, (ledger pre).lent c r.1 ≠ none

/-- The kernel works on unanswered requests only. -/
def Kernel (tr : List Ev) : Prop := ∀ pre c id post, tr = pre ++ .kern c id :: post → (ledger pre).lent c id ≠ none

/-- A program, given by what it may have done up to any moment, does only what it may as long as the channels answer as they should. -/
structure Safe (P : List Ev → Prop) : Prop where
  cut : ∀ a b, P (a ++ b) → P a
  keeps : ∀ tr, P tr → Answers tr → Keeps tr

/-- The program's part of what happens. -/
def Ev.ofProgram : Ev → Bool
  | .kern _ _ => false
  | _ => true

/-- The program does something with the memory `b`. -/
def Ev.uses (b : Nat) : Ev → Prop
  | .alloc x _ => x = b
  | .free x => x = b
  | .touch x => x = b
  | .add _ _ _ x _ => x = b
  | _ => False

/-- An event in other names for memory and channels. -/
def Ev.rename (bn cn : Nat → Nat) : Ev → Ev
  | .alloc b n => .alloc (bn b) n
  | .free b => .free (bn b)
  | .touch b => .touch (bn b)
  | .add c id w b len => .add (cn c) id w (bn b) len
  | .flush c id => .flush (cn c) id
  | .poll c rs => .poll (cn c) rs
  | .kern c id => .kern (cn c) id

/-- Threads at the same time: thread `i` does what `P i` may, with its own memory `bn i` and channels `cn i`; `l` is what they do in
order. -/
def Threads (bn cn : Nat → Nat → Nat) (P : Nat → List Ev → Prop) (tr : List Ev) : Prop :=
  ∃ l : List (Nat × Ev), (∀ i, P i ((l.filter fun p => p.1 = i).map Prod.snd)) ∧ tr = l.map fun p => p.2.rename (bn p.1) (cn p.1)

end Verif.Lend
