# Formal model of ndkimhao/go-xtd in Lean 4 — design

Source modelled: `/repo` (Go 1.18 generics library). Nothing is run; the tie between model and
code is reading. Every model definition cites the Go file and lines it models.

## Layout

`lean/Verif/<Area>/Model.lean` — the model; `Spec.lean` — small independent specification used in
statements; `Lemmas*.lean` — helper proofs; `Props.lean` — the property theorems (`Cnn_...`) with
non-vacuity examples beside them. Areas: `Sort`, `Iter` (iterators + algo), `Slice`, `Ring`,
`ArrayMap`, `CustomMap`, `GoMap` (set, ops), `Sharded` (sequential and concurrent), `AtomicValue`,
`Stream`, `Xfn` (predicates, comparators, bind), `Xhash`, `Secrand`, `Xsync`, `Pool`.

## Modelling conventions

* A Go call that may panic returns `Except String α` (`Go α`); `.error msg` is the panic. Index
  expressions, slicing and nil dereferences are checked and give `.error`.
* A slice is a `List` when aliasing cannot matter to the property, otherwise an array of a heap
  plus (offset, len, cap).
* A loop is structural/well-founded recursion, or takes fuel and returns `none` on exhaustion;
  theorems then say fuel suffices (or that no fuel does).
* Machine integers are `BitVec 64`/`BitVec w` where wrap-around matters, `Nat`/`Int` elsewhere.
* User functions (comparators, hashes, predicates) are arbitrary pure Lean functions.
* Goroutines: labelled transition systems, one atomic step per lock/atomic/map action, arbitrary
  number of threads, arbitrary schedules; linearizability is the Herlihy–Wing definition over
  invocation/response histories.

## Plan per property

| id | what is modelled | how proved |
|----|------------------|-----------|
| C01–C03 | all of `xsort/sort_any.go` pdqsort path (`insertionSort, siftDown, heapSort, pdqsort, partition, partitionEqual, partialInsertionSort, breakPatterns, choosePivot, order2, median, reverseRange`) over lists with checked indices, parametrised by `lt` and the separately written "not less" test | every function is a sequence of swaps inside a window (refl.-trans. closure), hence permutation/frame; loop invariants for sortedness; well-founded recursion on window size |
| C04–C05 | `stable, symMerge, rotate, swapRange` | every step is a closure of adjacent exchanges of strictly out-of-order elements; SymMerge invariant |
| C06 | the same parametrised model instantiated with `<`/`>=`; and `sort_ordered.go` transcribed on its own (`Sort/OrderedModel`): loops without bound (`partial_fixpoint`, endless = `none`), `int(uint(x) >> 1)` through 64 bits, `/` towards zero | equality of instances; simulation of every function of the common model by the one as written |
| C07 | floats = NaN + linear order | counterexample for SortOrdered; C01 with C52 for LessFloat |
| C08–C15 | `algo/*.go` over an abstract random-access iterator and its slice / reverse-slice instances | loop invariants; successor theorem by prefix/suffix decomposition |
| C16–C21 | `ds/xslice/*.go` over heap arrays with offset/len/cap | direct list lemmas; counterexample for NewLenCap |
| C22–C26 | `ds/xring/ring.go` | refinement to `List`, invariant induction over op sequences |
| C27–C28 | `ds/xmap/arraymap.go` | the code violates these: counterexamples; the histories on which it works, exactly (`ArrayMap/Exact.lean`) |
| C29–C30 | `ds/xmap/custom.go` with Go value-receiver semantics | counterexample for collisions; refinement for collision-free histories (partial) |
| C31–C32 | Go maps with possibly non-reflexive key equality | refinement; NaN counterexample |
| C33 | `ds/xmap/sharded.go` sequentially | refinement to one map |
| C34–C38 | sharded map as a transition system with RW locks | simulation with linearization points; counterexamples for Clear (race), Len/Empty (snapshot) |
| C39–C41 | `atomic/value.go` as a transition system over fresh pointers | simulation; counterexample history for spurious CAS failure |
| C42–C49 | `stream/*.go` sources and op interpreter | simulation of the op chain by list functions; counterexamples where the code differs |
| C50–C53 | `xfn/predicate.go`, `comparator.go`, `xmath/number.go` | case analysis; counterexample for And |
| C54–C55 | `xfn/bind.go` with reflect types/values abstracted | induction over argument list |
| C56–C58 | `xhash/fast64.go`, `binary.go` on `BitVec 64` | explicit inverses / algebra of rotations |
| C59–C63 | `secrand/rng.go`, ChaCha as an arbitrary keystream function | invariant induction; counterexamples for C62, C63 |
| C64–C66 | `xsync`, pools as transition systems | invariants |

Later additions (C67–C71) follow the same lines as their neighbours: C67 with C34–C38, C68 with C39–C41,
C69 with C56–C58, C70–C71 with C59–C63. C72–C76 are again about `xsort`: C72–C75 count the `ask` nodes on
a path of the decision tree with a second program logic (`cw`, `Sort/Cost.lean`), with a potential argument
for pdqsort (each partition either is balanced, shrinking the part by 7/8, or costs a unit of `limit`);
C76 uses that an `ask` node records the slice as it is while the comparator runs.

C77 adds up the sizes of the buffers allocated by `checkGrowth` and `checkShrink` along a history. C78 is
`xfn/arithmetic.go`. C79 and C80 repeat the algorithms with comparators that have a state and may panic
(Algo/Effect.lean); the effectful versions are proved to erase to the ones of C08–C11. C81 is
`atomic/ptr.go`. C82 and C83 say what sources yield and what `SkipNext` returns, C84 what the iterators
and ranges of a slice cover.

C85 sharpens C67 to one snapshot per shard, for all methods that go through the shards. C86 lets goroutines
run arbitrary programs over the shards (Sharded/Reentrant.lean), so that factories and `fn`s may call methods
of the map; it shows under which lock they run and which calls never return. `C36_only_clear_races` says
what can race when `Clear` is used, `C36_exact` (Sharded/RaceExact.lean) which pairs of methods can.

C87 and C88 add ghost events to the decision trees of `xsort` (`Prog.note`: an exchange, a recursive call
starting or ending); they have no effect on a run, only on its trace. The logic `ew` (Sort/Events.lean) folds
a trace into a state: exchanges less calls (a potential argument for pdqsort), exchanges, and the number of
calls in progress.

C89 composes the sorts with the searches and permutations through the contents of a view. C90 and C91 are about
`Clear`: what a call guarantees amid other calls, and linearizability seen through one shard at a time
(Sharded/ShardLin.lean), where `Clear` takes effect when it replaces the table of that shard.

C92 says what streams do that fail or do not end: a terminal operation that runs forever is `none` in the
model (`partial_fixpoint`), so divergence is a statement like any other. C93 is about the generator that
pdqsort breaks patterns with. C94 is `xrand.Crypto` over an arbitrary source of entropy. C95 puts
`Map.Stream` together from C32 and C42.

C96–C98 say what pdqsort's helpers do that C01–C05 leave open, since any pivot and any shuffle sort in the end:
which pivot is taken, that a descending slice is turned round, and which elements are exchanged to break a
pattern. `Does less m d r d' n k` (Sort/Descending.lean) is an exact run: result, slice, comparisons and exchanges.
C99 is C92 for a source made of iterators.

C100 is about the `hash.Hash` contract. C101 adds keys that cannot be hashed (interface keys; a map panics on
them) to the sharded map. C102 is C33 for a `==` that need not be reflexive and a hash that may answer differently
each time for a key that is not `==` itself, as the runtime's does for NaN.

C103 puts the ring onto the heap of Slice/Model.lean and proves that each call there does what it does in
Ring/Model.lean, and which cells it writes. `Hist` is a history of calls with arbitrary writes by the rest of
the program in between.

C104 is about calls outside the contract of the algorithms: `first` behind `last`, or in another slice. `Fenced`
says that the iterators panic outside their sequence, as those of a slice do.

C105 is the whole output of `secrand.RNG` as a formula over the cipher (`outByte`; `byteAt` if calls straddle two
fillings of the buffer), and the seeds of `NewRNG`.

C106 models streams once more with callbacks that panic and a caller that recovers (Stream/Panics.lean): every call
leaves a state. The specification is a pipeline over items (an element, a panic, the end); `agrees` says that
without panics it is the model of C42. C107 is `Stream.String`. C108 is package `hasher` over an arbitrary runtime
hash, and gives `NewSharded` what C102 asks of a hash.

C109 is `Bind` with its messages in full. The specification is a list of things that can be wrong (`Problem`), what
each means (`Wrong`), which comes first (`Before`) and what is to be said about it (`messageOf`).

C110 composes two calls of `Bind`; `atOnce` is the argument list that does both.

C111 (Slice/Stale.lean) runs histories on a slice variable together with iterators made at the start. Its
specification `Two` has no pointers: the cells of the old storage, and the list, which is a prefix of the cells or not.

C112 (ArrayMap/Panics.lean, CustomMap/Panics.lean) models the two maps again, with keys that cannot be hashed
(`bad`) and with hash functions and comparators that can panic; `C112_arrayMap_agrees` and `C112_custom_agrees` say that
without panics these are the models of C27–C30.

C113 (Stream/Exact.lean) says exactly what C43 and C44 only bound: which elements are read, and the whole order of
reads and callbacks. Its specification `over`, `events`, `trace` is about the lists of elements that come to each call.

C114 (CustomMap/Exact.lean) says what a `Custom` does on every history: its specification `Answers` is a mathematical
map with three extra rules for a key whose hash is taken by another one.

C115 (Sort/Parametric.lean) relates two runs of a sort on slices of different types (`Alike`); every function of the
package is alike itself. C116 (Sort/Unique.lean) shows that C01–C05 determine the result.

C117 (Ring/Copies.lean) puts two headers over one buffer in the memory model of C103 and says which cell each call
writes (`written`) and what the other ring sees of it (`sees`).

C118 (Sort/Period.lean) works with polynomials over the two-element field as lists of coefficients, acting on words by
the step of the generator; that the step satisfies the polynomial is checked on the 64 words with one bit, the rest is
arithmetic modulo its four factors. All of that is evaluated by the kernel (`decide +kernel`) on closed terms.

C119 (Stream/Loop.lean) models `Stream` once more, with callbacks and sources that read and change memory and may panic;
`Next` and the terminal operations are `partial_fixpoint` definitions, so equality of two of them includes not returning.
The specification is the loop over the source (`forSource`) and over a slice (`forRange`) with the chain as its body;
Stream/Counted.lean adds `Skip` and `Limit`, whose counters are variables of the loop (`forSourceV`, `forRangeV`).
C120 (Stream/InPlace.lean) puts the slices of the heap model (Slice/Model.lean) into that memory. The chain is built by
the calls of the earlier model (`built`), so `Skip` moves the slice source where the code does.

C121 (Stream/Nested.lean) is about the model of C119. "Cannot be told apart" is `Alike`: some relation contains the two
streams and is kept by `Next` with equal results and memories (`Agree`).

C122 (Conc/Before.lean, Sharded/Ordered.lean, Xsync/Ordered.lean, Xsync/RandOrdered.lean, AtomicValue/Ordered.lean)
defines happens-before on the steps of an execution: the order of each goroutine and the edges the Go memory model gives
for the synchronisation used, which are the trusted part (`Sync` in each file). C36, C64 and C65 say that no two
goroutines are about to access something at the same moment; C122 says that accesses at different moments are ordered,
which is what Go requires of programs whose memory is to be sequentially consistent.

C123 (Sort/ByPlace.lean, Sort/Writing.lean) turns the sorting functions into programs that compare and exchange what is
at given places (`Ix`), the same for all element types; for these it makes sense that the comparator overwrites the slice.

C124 (Stream/Reenter.lean, Stream/ReenterProps.lean) is about callbacks that use the stream they are called by. Callbacks
are programs there, and the operations of a stream are cells of arrays, because `range s.ops` and `s.ops[i] = …` in
`Next` need not mean the same slice any more. With callbacks that leave the stream alone it is the model of
Stream/Model.lean (`C124_agrees`).

C125 (Sort/Lower.lean) bounds the number of comparator calls from below; it uses that runs on labels are the same as runs
on the elements (C115) and that a run is given by comparisons and exchanges at places (C123).

C126 (Conc/Client.lean) is about programs over the concurrent types: a goroutine runs a `Client`, a machine that asks for
the next call and goes on with its result; `Client.atomic` shows for every linearizable history that the programs are where
they can be if calls are single steps (`Client.Atomic`). AtomicValue/Client.lean, AtomicPtr/Client.lean, Sharded/Client.lean
and Xsync/Client.lean apply it: the update loop, initialising once, a lock. Programs are deterministic; a choice they make
can be put into the starting state.

C127 (Conc/Local.lean, Together/Props.lean) puts objects side by side: the memory of a family is the memories of its objects,
an action is an action on one of them (`Family.mach`). `linearizable_local` is the locality theorem of Herlihy and Wing: a
history, matched and such that its part for every object is linearizable, is linearizable for all of them at once. With C126
programs over several objects may take each call as one step; publishing through a map is the example.

C128 (Conc/Fair.lean, Conc/FairLocal.lean, Sharded/Fair.lean, Xsync/Fair.lean, Together/Fair.lean) is about executions that
never end (`Run`: states and steps for all moments, at some of which nothing happens). `CanGo` is that a goroutine in a call
can take a step, `Weak` and `Strong` the usual fairness. `Locking.returns` is for all objects whose methods take locks one at
a time: an announced writer gets the lock because readers leave and no new ones come in; hence every lock is free again and
again; hence, with strong fairness, whoever waits gets it. With weak fairness only this is false for locks (`C128_weak_false`),
since the model has no queue in the mutex. An endless execution of several objects is, seen from one of them, an endless
execution of that object and as fair (`Family.run_see`, `Family.strong_see`).

C129 (Rand/*.lean) is about the functions of `xrand` and `secrand` that draw: Rand/Model.lean has the methods of `rand.Rand`
they call, over any source. A method that draws again until a number suits is described by `Picks`: which numbers suit and
what becomes of the first that does (`First`). `Uniform` then counts, among all `2 ^ 63` numbers, those that lead to each
result. `Perm` and `Shuffle` are bijections between lists of drawn indices and permutations (`build_inj`, `build_surj`,
`shuffled_unique`). That the numbers of a source are independent is not expressible here.

C130 (Algo/PermCost.lean) adds up comparator calls over a whole enumeration. A comparator may have effects but answers by
`lt` (`Honest`); the run is compared with that of the pure comparator step by step (`*_sim`). A call costs at most twice
the length of the longest suffix without an ascent (`tailLen`), and the sum of these lengths over the arrangements of `n`
elements is at most `tailSum n`, with `tailSum (n + 1) = (n + 1) * tailSum n + 1`: the first element lengthens the suffix
only in the one descending arrangement.

C131 (Sort/WrittenModel.lean, Sort/WrittenProps.lean) does for `sort_any.go` what C06 does for `sort_ordered.go`: the file
is transcribed a second time, statement by statement, in a monad with endless loops (`none`), panics, the slice and a
comparator state. The common model's fuel, its decision trees and its `Nat`-bounded recursions do not occur in it. `Agrees`
says that whenever the common model returns or the comparator panics in it, the function as written does the same; since
the common model never fails by itself (C03, C76), this settles every run. The index arithmetic is on `Int`; only the
conversions through `uint` are taken at 64 bits, which is why the length is required to be below 2^63. All other sums and
products stay below `4 * n`, so nothing wraps in Go for lengths up to 2^61; beyond that only slices of zero-size elements
exist.

C133 (Sort/WrittenRace.lean) uses the same transcription in a `World` in which the comparator may change the slice and
other goroutines may change it before every read and write of an element. The length is in the slice header, of which
the functions have their own copy, so nobody can change it (`Keeps`). What others do is a function of a state, and the
theorems hold for all such functions and states, so every schedule is among them. Reads and writes of an element are
taken to be atomic; Go promises this only for elements of at most a machine word. Sort/WrittenSim.lean relates the
transcription to the common model by how both are built, once for all worlds; WrittenProps.lean reads this off for a
world in which nobody else writes, WrittenRace.lean for any.

C134 (Rand/Floats.lean) treats a floating-point number from 0 to 1 as its 2^63-fold, a natural number, so that the
conversions are roundings to 53 and 24 bits. `Nearest` states what IEEE 754 demands of such a rounding; it determines the
result (`nearest_unique`), and the theorems speak of it, not of the function `roundTo` of the model.

C135 (Slice/Inserters.lean) keeps the positions of the insert iterators in memory beside the slice variable. `laid` says on
lists what the writes amount to; `laid_one` and `laid_two` say what that means for one and for two iterators.

C137 (Slice/Views.lean) is about any number of variables holding sub-slices of one slice, named by an arbitrary type. The
specification has one list of shared cells; a variable is an offset with a length, or a list of its own. The calls are those
of C111, so a variable's stale iterators are included.

C138 (Xfn/Kept.lean) puts the slices kept by the functions of package xfn into the memory of Verif/Slice/Model.lean; function
values are elements of an arbitrary type whose calls may change memory. Calls of a bound function are broken up into steps
(make the copy, fill in one placeholder, call `src`); any number of them may overlap.

C139 (Algo/Unsorted.lean) is about the searches of Algo/Effect.lean with a comparator that keeps a record of its answers.
C140 (Algo/Raced.lean) wraps the iterators of a range so that before each `Get` and `Set` an arbitrary function changes memory
(what other goroutines did meanwhile); one access is one step, as if elements were read and written atomically.

C141 (Secrand/Gen.lean, Xhash/Gen.lean) models the two programs that feed dieharder. Their loops never end; the model gives what the
first n turns hand to the writer, for every n. Flag parsing is left out (the flags are arguments), the buffered writer of
the one and the standard output of the other are taken to pass everything on, and failing writes are not modelled.

C142 (Sharded/Ascending.lean) uses the system of C86, in which goroutines run arbitrary programs over the shards. `json.Marshal` is an
arbitrary function of the map it is given, and may itself be a program over the shards.

C143 (Sort/OrderedRacedModel.lean, OrderedRacedSim.lean, OrderedRaced.lean) transcribes sort_ordered.go once more, with a step of the
other goroutines before every access. A racing read of an element of several words may in Go give a mixture of values; here, and for
C133, it may give anything. The mark that a comparison leaves is not in the code and only counts.

C144 (Sharded/Layout.lean) is the `unsafe` part of package `hasher`: memory is bytes, structures are laid out field by field at the next
multiple of the alignment, and the runtime's layout is a hypothesis.

C145 (Xhash/Xxh3.lean) has its own specification of XXH3 for inputs of 4 to 8 bytes: natural numbers, the bytes of the secret, and
the published steps; nothing of xhash/fast64.go is used in it.

C146 (AtomicValue/Tests.lean, AtomicValue/TestsCas.lean) models the goroutines of three tests of atomic/value_test.go as client
programs over the model of `Value` and proves that the tests cannot fail, whatever the interleaving and however many goroutines
and rounds. The phases of a test (before `w.Wait()`, after it) are executions one after the other, with nobody in a call between
them (`Quiet`). `C146_cas_ends` is a liveness statement: `Testing` supposes weak fairness and that a goroutine that has not
finished calls again.

C147 (Conformance/RingLarge.lean) is about TestRing_Large as a program over the model of the ring, for all `n`. `roomFor` and
`emptied` are the specification of the capacity: what growing and shrinking come to in the end.

C148 (Src/RingRun.lean, with Src/RingSrc.lean and Src/RingMethods.lean) relates the text of ds/xring/ring.go to the model.
`Rep m p i b r` says that memory `m` has the ring `r` in a cell, `Slice` that a value is a slice with these elements, `runSrc`
evaluates the Go expressions `r.Append(v)` and so on one after the other. `C148_spec` does not mention the model: text and
list specification only. See also "Text and model" below.

C149 (Src/SortRun.lean) does the same for the three files of xsort. `C149_sort`, `C149_stable`, `C149_ordered` and `C149_any` mention
text, memory and order only; the model appears in `C149_model` and in the proofs, where each function of the text is shown to
do what its counterpart in Sort/Model.lean does (Src/Sort{Any,Ordered}{Basic,Partition,Pivot,Pdq,Stable,Entry}.lean: the two
families of files differ as sort_any.go and sort_ordered.go do).

C150 (Src/AlgoRun.lean) does the same for algo, with the reverse iterators and ranges of ds/iter and the iterators of ds/xslice.
The text of algo is generic in the iterators. `RandImpl` (Src/AlgoBase.lean) says of an encoding of the iterators of the model as values
that the methods of the text do to it what those of the model do; from this alone each function of algo does what its
counterpart in Algo/Model.lean does (Src/AlgoBound.lean, AlgoSorted.lean, AlgoPerm.lean: `…_src`). `slice_impl` (Src/SliceIter.lean) proves
`RandImpl` of the slice iterators, `rev_impl` of reverse iterators over any that have it. The theorems `C150_…` put these together
with C08–C14 and mention text, memory, elements and order only.

C151 (Src/SliceRun.lean, Src/SliceMake.lean) does the same for the methods of ds/xslice: `Var` says that a cell of the memory is a
slice variable with given elements, `Op.spec` what a call should do to a list, `Writes` which cells a call may write; `C151_history` is
about any sequence of calls. `C151_ranges` connects to C150: what `Range` and `ReverseRange` return are the ends of the two walks.

C152 (Src/Map….lean) does the same for ds/xmap. The semantics has maps for it: a map value refers to a list of entries in memory, `range`
visits the entries in an order that is a parameter (the theorems assume only that it visits each once, `Fair`), skips those deleted
meanwhile, and a nil map can be read but not assigned. `Holds` says that a cell is an `ArrayMap` whose map and slice are those of the
model; that the overflow map of a `Custom` is lost, which the model says with `writeBack`, here follows from the value receivers in the
text. What a lookup in a nil map gives (the zero value of a type not known there) is a value that nothing can be done with; the code
never uses it. A key is never of interface type with a dynamic type that is not comparable.

C153 (Src/Hash….lean) does the same for xhash. The constants of the package are read from its text too, as literals in hexadecimal.
An array variable is a new array in memory of which only slices can be taken. `Holds` says that the bytes of a slice up to its capacity
are those of the model's; they matter because `Write` reads beyond the length. `bits.RotateLeft64` and `bits.ReverseBytes32` are given
by their documentation (`ext`).

C154 (CustomMap/Overflow.lean, Src/MapOverflow.lean) is about the branches of `Custom` that no program reaches through `NewCustom`: the
overflow table that `Set` makes is lost with the copied receiver (C30). Wrong versions of those branches, in the text or in the model,
left every theorem as it was. C154 starts from a struct whose table is there. It shows a second defect behind the first: `Delete` of
the key in `main` drops the hash's entry of `main` and leaves the overflow, which `Get` no longer looks at.

C155 (Src/ShardText.lean, ShardProg.lean, ShardRun.lean) is the text of ds/xmap/sharded.go for one goroutine. The shards are cells of an array,
each with its map and its lock; the lock is four functions in the program that panic where `sync.RWMutex` would block or fail, so that a
method which forgets to unlock, unlocks twice or takes the wrong lock makes the theorems false. They are trusted as the meaning of the
lock for one goroutine, and are not quotations. `NewShardedCustom` assigns to a field of an element of a slice and the remaining
methods use `defer` or function literals; the semantics does not cover these.

C156 (Src/IterRestText.lean, IterRestProg.lean, IterRestRun.lean) is the text of the iterators of ds/iter that no other program quotes. What a
base iterator or a container does is a hypothesis per method (`NextIs`, `GetIs` …), so that the read-only iterators are seen to call no
method that their constraint does not have. The model keeps an `InsertIterator` as its position; here it is a cell in memory, and the
theorem says that this cell holds the model's position after every `Set`.

C157 (Src/FnText.lean, FnProg.lean, FnRun.lean) is the text of xmath and of the functions of xfn that make no functions. The comparison
operators of elements are the `Ops` of Xfn/Model.lean, all independent of each other, so that a function that uses another operator
than it should is seen even where the two agree on ordered types.

C158 (Src/RngText.lean, RngProg.lean, RngRun.lean) is the text of the functions on bytes of secrand/rng.go and of `Uint64` when it finds
eight bytes in the buffer; when it does not, for any `Read`. The text of `Read` uses arrays in a way that Src/Sem.lean does not have; it
stays on the model.

C132 (Ring/Inserters.lean) takes the memory to be a family of rings and a container to be an interface value; `==` on
interface values is a class (`IfaceEq`) since it may panic.

For C40 the result of every call is determined (AtomicValue/Exact.lean): a cell is published at most once, so the compare
and swap of the pointer fails exactly if another goroutine wrote since the load, whatever it wrote.

C70 is decided by Secrand/SplitExact.lean: a split makes no difference exactly if every straddling `Read` finds only zeros
left of the old filling.

For slices C42 is decided exactly (Stream/SliceExact.lean): the `Skip`s before any `Filter` or `Limit` lead to a place
(`place`, in 64-bit arithmetic), the other calls act on the elements from there on.

For `Custom` the histories on which C29 and C30 hold are characterised in CustomMap/When.lean, as for `ArrayMap` in
ArrayMap/Exact.lean.

Which buffers `ToSlice` may be given, overlapping the ring or not, is decided exactly in Ring/Overlap.lean (C26).

What every `Range` gives, with wrap-around in the type, and which ranges stop is decided in Stream/RangeExact.lean (C47).
What a stream that has ended does under every later sequence of calls is decided in Stream/Finished.lean (C46).

For which states and numbers `SkipNext` is reading and dropping is decided for every source kind in
Stream/SourceProps.lean (slices) and Stream/SkipExact.lean (C48); what chains before and after `stream.Map` give over a
slice, in Stream/MapExact.lean (C49).

Not expressible in the model (runtime facts): statistical quality of random output, cryptographic
strength of ChaCha, the layout of the Go runtime's type descriptors, GC behaviour,
memory-model effects below sequential consistency, running time other than counted steps.

## Trusted base

1. **Lean's kernel** (4.33.0), which checks every proof term. No `sorry`, no `admit`, no
   `native_decide`, no `bv_decide`, no `unsafe`/`implemented_by` in any theorem, no axiom of our own.
2. **Axioms**: at most Lean's three standard ones, `propext`, `Quot.sound`, `Classical.choice`.
   [AXIOMS.md](AXIOMS.md) lists, theorem by theorem, the output of `#print axioms` for everything named
   in MANIFEST.json.
3. **The definitions in the theorem statements** — the model (`Model.lean` and the files named below) and
   the specifications (`Spec.lean`, or the `def`s next to the theorem in `Props.lean`). Lemma files and
   proofs need not be read. Mathlib is used for lemmas and tactics, and for `List`, `Multiset`,
   `List.Perm`, `List.Pairwise`, `Finset` in statements.
4. **The reading of the Go code**: that each definition says what the cited lines do. Nothing checks this
   mechanically, except for the files under "Text and model" below. Go facts relied on are collected under "What is assumed of Go" below. For C129 the code is that of
   `math/rand` of Go 1.18, which is not in /repo and is written down from knowledge of it.
   The files in Verif/Conformance replay tests of the repository, with their literal data, on the models (all of
   ds/xring, ds/xslice, algo, stream, and those of xfn and ds/xmap that are not about messages, which are in
   Xfn/BindMsgProps.lean). These are tests of the models, not proofs: they show that the models answer what the authors of the
   code expected of it. Every expectation was met. The tests of xhash and hasher compare values of the real hash function and
   those of xsort sort by a strict order, where C116 leaves one answer only (up to equal elements); they are not replayed.

## Text and model

For some files the step from the Go text to the model is itself proved (C148 for ds/xring/ring.go, C149 for xsort, C150 and C151 for algo, ds/iter and ds/xslice, C152 for ds/xmap, C153 for xhash, C155 for ds/xmap/sharded.go, C156 for the rest of ds/iter, C157 for xmath and parts of xfn, C158 for parts of secrand/rng.go). Verif/Src has

* the text: `RingText.lean`, `SortText.lean`, `SortAnyText.lean`, `SortOrderedText.lean`, `AlgoText.lean`, `IterText.lean`, `IterRestText.lean`, `SliceText.lean`, `MapText.lean`, `HashText.lean`, `ShardText.lean`, `FnText.lean` and `RngText.lean` quote each function line by line (`tools/quoted.py` compares the quotations with /repo);
* a lexer and a parser for the part of Go that the files use (`Syntax.lean`). The theorems `…_parse` say what tree the parser
  makes of each text; `parsed%` (`Embed.lean`) only writes that tree out, and the kernel checks it;
* a semantics of these trees (`Sem.lean`): memory as arrays, slices with offset, length and capacity, pointers to cells and
  fields, integers that wrap around, panics, calls;
* proofs that functions, by this semantics, do what the models say (`RingSrc.lean`, `RingMethods.lean`, `RingRun.lean`, `Sort….lean`, `Algo….lean`, `Slice….lean`, `Map….lean`, `Hash….lean`). `Run.lean`
  is a tactic that computes the meaning of a program on partly unknown values, `Memory.lean` has lemmas on memory.

For these files the reading of the code is replaced in the trusted base by the parser and the semantics, which are written
once for all functions. What they leave out (types are not checked; the type declarations at the head of a file, the
dropping of type parameters, and the list of functions are given by hand) is stated in the files.

## What is modelled, file by file

| Go file | model | remarks |
|---|---|---|
| algo/binary_search.go, fill.go, generic.go, is_sorted.go, next_permutation.go | Algo/Model.lean | every function, over an arbitrary random-access (or forward) iterator class, `int` arithmetic wrapped to 64 bits |
| atomic/value.go | AtomicValue/Model.lean | every method as a program of single atomic pointer actions and allocations |
| atomic/ptr.go | AtomicPtr/Model.lean | every method is one atomic action |
| atomic/atomic.go | no | aliases of go.uber.org/atomic |
| constraints/*.go, generics/*.go, xtd/*.go | no | type-level declarations; `ZeroOf` is `default`; `Addr`, `NoCopy` have no behaviour of interest |
| ds/iter/*.go | Iter/Model.lean | all iterator adaptors (reverse, append, prepend, insert, dummy, range) |
| ds/xmap/arraymap.go | ArrayMap/Model.lean | every method |
| ds/xmap/custom.go | CustomMap/Model.lean | every method; value receivers as value passing, so that updates of receiver fields are lost as in Go, updates of shared maps are not |
| ds/xmap/map.go, ops.go, set.go | GoMap/Model.lean, GoMap/Stream.lean | every function; the order of `range` is an argument |
| ds/xmap/sharded.go | Sharded/Model.lean, Sharded/Unhashable.lean, Sharded/AnyKey.lean | every method as a program of lock, map-read and map-write steps; Unhashable.lean with keys on which maps panic, AnyKey.lean with a hash that changes between its two calls; `NewSharded` is in Sharded/Hasher.lean, `MarshalJSON` in Sharded/Ascending.lean (`json.Marshal` is arbitrary) |
| ds/xring/ring.go | Ring/Model.lean, Ring/Alias.lean, Ring/Heap.lean | every method; Alias.lean again over a shared heap array for `ToSlice` into the ring's own storage; Heap.lean every method again over the heap of Slice/Model.lean |
| ds/xslice/*.go | Slice/Model.lean | every method over heap arrays with offset, length and capacity; the growth policy of `append` is an arbitrary function that returns enough |
| hasher/*.go | Sharded/Hasher.lean | every function over an arbitrary runtime hash; how `Of` gets it from the runtime's type descriptors through `unsafe` is in Sharded/Layout.lean, over an arbitrary layout of these |
| secrand/rng.go | Secrand/Model.lean, Secrand/KeyStream.lean, Secrand/EveryRead.lean | every method; the ChaCha implementation (outside the repository) is an arbitrary key-stream function, Secrand/Chacha.lean defines the real one for the concrete counterexample of C70 |
| secrand/pool.go, secrand/secrand.go, xrand/pool.go, xrand/xrand.go | Xsync/RandPool.lean, Rand/Model.lean | Get/use/Put as a transition system; all package-level functions have the same shape and are one case; what the methods of math/rand do with a source is in Rand/Model.lean, except for the floating-point functions |
| xrand/crypto.go | Xrand/Crypto.lean | every method, over an arbitrary entropy source |
| stream/*.go | Stream/Model.lean, Stream/IterFails.lean, Stream/Panics.lean, Stream/Loop.lean, Stream/Str.lean | every source, operation and terminal operation; Panics.lean again with callbacks that panic, Loop.lean again with callbacks and sources that read and change memory |
| xfn/predicate.go, comparator.go, types.go, xmath/number.go | Xfn/Model.lean | every function |
| xfn/bind.go | Xfn/Bind.lean, Xfn/BindMsg.lean | with reflect's types, assignability and conversion abstract |
| xfn/arithmetic.go | Xfn/Arith.lean | every function, over a structure of operations; instances for signed and unsigned integers of every width |
| xhash/fast64.go, binary.go | Xhash/Model.lean | on `BitVec 64`, slices with spare capacity |
| xhash/xxh3.go | no | calls of an external package |
| xhash/diehard_gen/main.go, secrand/dieharder_test/main.go | Xhash/Gen.lean, Secrand/Gen.lean | what their loops print; not the parsing of arguments and flags |
| xsort/*.go | Sort/Model.lean | every function of both generated files as one model with two comparison primitives (`less(x,y)`, and `!less(x,y)` / `x >= y`) |
| xsync/pool.go, synchronized.go | Xsync/PoolProps.lean, Xsync/SyncModel.lean | every method |

## What is assumed of Go

* Index, slice and nil checks panic; a panic ends the call (deferred unlocks run, and are modelled).
* `int` is 64 bits wide.
* A `map` behaves as a finite map up to `==` of its keys, with iteration in an unspecified order; a key that
  is not `==` to itself can be inserted and iterated over but neither found nor deleted.
* `sync.Mutex`, `sync.RWMutex`, `sync.Pool`, `sync/atomic` behave as documented; executions are
  sequentially consistent interleavings of the modelled steps (justified for race-free programs by the Go
  memory model; C36 and C122 state race freedom, and where it fails).
* Comparators, hashes and callbacks are functions of their arguments, except in `Sort`, where a comparator
  may answer anything at each call, and in `Stream`, where callbacks leave events in a log and generators
  have a state. C79 and C80 (algorithms), C106 (streams) and C112 (maps) add callbacks that panic, C119–C121 callbacks
  that read and change memory. Callbacks do not call back into the object under use except in C86.
* Values are copied by assignment; element types of size zero are not considered (`Slice`).

## Where the code does not do what the property says

Each is a theorem with a concrete witness; the part that does hold is proved beside it.

| property | what happens | theorem |
|---|---|---|
| C07 | `SortOrdered` with a NaN leaves numbers unsorted | `Sort.C07_sortOrdered_false`, `Xfn.sortOrdered_float64_false`; exactly which slices of at most 12 elements: `Sort.NaN.C07_short_iff` |
| C15 | `iter.ReverseRandomRange` does not exchange the ends | `Algo.C15_reverseRandomRange_wrong`, `Algo.C15_full_false` |
| C21 | `xslice.NewLenCap(len, cap)` has length `cap` | `Slice.C21_newLenCap_wrong`, `Slice.C21_newLenCap_false` |
| C26 | `ToSlice` into the ring's own storage corrupts a wrapped ring | `Ring.C26_fails_when_aliased`, `Ring.C26_full_false` |
| C27, C28 | `ArrayMap.Delete` records a wrong position; `Set` of a present key adds a second slot | `ArrayMap.C27_delete_damages`, `C27_wrong_value`, `C27_full_false`, `C28_full_false` |
| C29, C30 | `Custom` loses every colliding key | `CustomMap.C29_full_false`, `C30_full_false`, `C30_zero_false` |
| C154 | even with an overflow table, `Custom.Delete` of the first of several keys with its hash loses the others | `CustomMap.Overflow.C154_loses`, `Src.XMap.C154_text_loses` |
| C32 | `Clear` keeps entries whose key is not `==` itself | `GoMap.C32_full_false` |
| C36 | `Sharded.Clear` writes under the read lock | `Sharded.Props.C36_clear_races` |
| C37 | `Len`, `Empty` are not snapshots | `Sharded.Props.C37_len_false`, `C37_full_false`; exactly for which maps: `Sharded.C37_exact` |
| C90, C91 | `Clear` is not atomic over several shards | `Sharded.Props.C90_not_atomic`, `C91_clear_not_linearizable` |
| C39, C40 | `CompareAndSwap(0, -0)` stores nothing; `CompareAndSwap` fails when an equal value was stored | `AtomicValue.C39_full_false`, `C40_full_false` |
| C42–C44, C46–C49, C82 | int overflow of accumulated `Skip` (a panic, or skipped elements come again); `Skip` pushed past `Peek`; `Limit` asks for one element more, and does not end after a `Filter`; `Skip` on a finished stream dereferences nil; `Range` wraps around; `RangeN(0)` of an unsigned type is endless | `Stream.pipeline_false`, `C42_comes_back`, `peek_misses`, `peek_overreads`, `limit_overreads`, `limit_diverges`, `finished_skip_panics`, `range_runs_on`, `rangeN_false`, `skip_slice_false`, `C82_slice_false`, `skip_range_false`, `skip_bounded_false`, `skip_mapped_false`, `mapped_false` |
| C50 | `And` is implemented as `Or` | `Xfn.and_is_or`, `not_andIsAll` |
| C53 | `Min`, `Max` with NaN depend on the argument order | `Xfn.min_max_nan`, `not_minCommFloat` |
| C54, C55 | `Bind` of a variadic function passes the last slice as one element | `Xfn.bind_variadic`, `not_bindRoutes`, `not_bindChecks` |
| C109 | `Bind` writes 11st, 12nd, 13rd | `Xfn.C109_eleven`, `C109_false` |
| C57 | `Write` reads beyond its argument or panics when the length is not a multiple of 8, and returns too much | `Xhash.write_panics_iff`, `write_reads_beyond`, `write_returns_too_much`, `not_writeDetermined` |
| C63, C70 | `Read` overwrites short slices and xors long ones; later output depends on the split | `Secrand.read_overwrites`, `not_readXors`, `straddle_differs`, `not_splitFree` |
| C100 | `Write` of parts is not `Write` of the whole; `Write` of nothing changes the sum | `Xhash.C100_empty_write`, `C100_two_writes`, `not_chunked` |
| C101 | `Set`, `TrySet`, `Delete`, `TryGet`, `Has` keep the lock when the map panics | `Sharded.C101_leaves_locked`, `C101_leaves_reader`, `C101_locked_forever`, `not_locksReleased` |
| C66 | `Get` of a zero `Pool` panics | `Xsync.Pool.zero_pool_panics`, `put_nil`, `not_getUsable` |
| C112 | `ArrayMap.Set` with a key that cannot be hashed panics after it has appended the entry; deleting another key then gives that key its value | `ArrayMap.Panics.C112_false`, `C112_set`, `C112_get` |
| C118 | `xorshift.Next` uses the shifts 13, 17, 5 of the 32-bit generator on 64-bit words: the words repeat after 6914497698226755 steps at the latest, for some seeds after 4095 | `Sort.C118_false`, `C118_cycles`, `C118_short` |
| C122 | `Sharded.Clear` writes under the read lock: nothing orders it with readers | `Sharded.C122_clear_unordered` |
| C124 | `Stream.Next` panics when a callback has read to the end and a `Limit`, `Skip` or refusing `Filter` follows; a callback that adds a ninth operation lets elements past a `Limit` | `Stream.Reenter.C124_lookahead_panics`, `C124_filter_panics`, `C124_limit_exceeded` |

## Tests against wrong programs

`seeded/LOG.jsonl` has one line per wrong program tried: the model was edited in a scratch copy and rebuilt,
and the theorems that no longer held are listed.
