# Formal model of go-AlgebraicProgram-SNARK in Lean 4

## Layout
* `lean/Verif/Model/*.lean`: the model, definitions only, each citing file and lines of /repo.
* `lean/Verif/Spec/*.lean`: specifications that do not use the model's helpers: modular arithmetic and `Polynomial (ZMod q)`,
  finite maps, the token grammar, expression trees, a source language with an interpreter (Lang), Mathlib's Weierstrass
  curves, the pairing (Ate), satisfied rows, conditions on a run (Run).
* `lean/Verif/Proofs/*.lean`: lemmas.  `lean/Verif/Props/*.lean`: the property theorems `Cnn_…`, each with a concrete case that
  meets its hypotheses (an `example`, a `Demo` namespace or a witness in the theorem itself).
* `MANIFEST.json`: theorems per property; `AXIOMS.txt`: the axioms of each of them; `seeded/LOG.jsonl`: wrong programs.

`_partial` marks a theorem with a restriction the English property does not have; `_refuted` marks a proof that the property
is false of the code (a finding).  A property with such a theorem has the status partial.

## Conventions
`*big.Int` is `Int` (Go's `Mod`/`Div` are Euclidean, as Lean's `%` and `/` on `Int`); the modulus is a parameter `q : Nat`
(`Fact q.Prime` only where needed); nil and panic are `none` (or a constructor); a slice is a `List`; mutation returns the new
value; loops are folds or recursions; loops that may not end take fuel, and the theorems say that enough fuel exists
(termination), that no fuel suffices (non-termination), or speak about every run that ends.  Where object identity matters
there is a memory: points of G1/G2 (Curve), AVL nodes during concurrent traversal (Channel), function objects and maps (Program),
big.Int cells (Heap), pooled numbers (Pool).

## Trusted base
* Lean's kernel (4.33.0) and Mathlib's statements of definitions used in specifications (`ZMod`, `Polynomial`,
  `WeierstrassCurve`, …).
* Axioms: only `propext`, `Classical.choice`, `Quot.sound` (per theorem in `AXIOMS.txt`).  No axiom is added, no compiled code is
  trusted; closed computations use `decide +kernel`, i.e. kernel reduction.
* That the model is what the Go code does.  It was written by reading the code; the code was not run.  Nothing else is checked by machine.

### What is modelled
| package | modelled | not modelled |
|---|---|---|
| utils | finiteField.go, polynomialField.go, avl.go, sparsePolynomial.go: all exported operations; the traversal goroutine as interleavings | printing; entropy source (an arbitrary byte list); memory consumption; uint overflow of keys |
| circuitcompiler | lexer.go, rune_stack.go (also the goroutine), parser.go, circuit.go, factorHandling.go, gate.go, Programm.go, ER1CS.go | texts that are not valid UTF-8; `import` reads files through an oracle; the hash is an arbitrary function `H` (no collision assumption except where stated: `NoConfusion`); printing and error texts; Go map iteration order where no theorem uses it |
| circuitcompiler, sharing | Model/Program.lean has numbers as values; Model/Heap.lean has them as shared cells; C39 connects the two | sharing of slices: argued in the header of Model/Heap.lean |
| pairing | constants.go, gfp2.go, gfp6.go, gfp12.go, curve.go, twist.go, optate.go, bn256.go, the number pool | `X()`/`Marshal()` also normalise their receiver: this side effect is left out in Model/BnApi.lean; constant-time behaviour; `crypto/rand` |
| zkSNARK | wol19.go: setup, prover, verifier, dense and sparse, over an abstract `Api` with `Laws`, instantiated by the modelled bn256 (SnarkBn) | timing output; randomness is explicit (`Toxic`) |
| testPrograms, tests | - | example sources and tests |

Ghost fields (they do not influence the run): `St.dropped` (gates dropped as already computed), `W.thrown`, `W.kept` (forms that were
evaluated in a discarded container / stored), `HW.clean`, `HW.full`.

### Conditions on a run
The theorems about whole programs (C84-C90, C39_text_*) speak about every run of the compiler that ends and satisfies conditions which
can be checked on the run (Spec/Run.lean and Spec/Circuit.lean): `CleanRun`, `NoClash`, and for the real sharing of numbers `w.clean` or
`Program.calm`.  Each condition is there because the code is wrong without it; see Findings.

## Findings (proved where a theorem is named)
* Field: `Exp` reduces the exponent modulo Q (C03_exp_refuted).
* Polynomials: dense division by a divisor with a zero leading entry (C08); sparse division by a constant never ends (C23).
* AVL: a failed removal can lose entries (C17).
* Gates: `equal(a,b)` has the identifier of `a*b`, one of the two is dropped (C29); `(0*x)*y` panics, `x/0` with a constant 0 is 0 (C40);
  SPLIT ignores the coefficient (C36), its bits are not unique (C37); `addGateConstraint` (C68).
* Numbering: a public input declared twice (C30); a constant spelled like an input in the sparse rows (C31); an unknown input
  overwrites the one-wire (C69).
* Witness: the dense calculator reads a bit with coefficient 1 (C69); the sparse one compares a reduced with an unreduced number (C70).
* Sharing: `x - c` negates the constant `c` itself, `x - scalarBaseMultiply(y)` negates the package variable `bigOne` (C39).
* Lexer: unsupported characters, lone `&`, `|`, `!`, unclosed quotes never end (C43); a trailing blank yields an empty identifier (C80);
  StartSync deadlocks on short tokens (C79); comment lines leave double breaks (C78).
* Parser: right nesting without precedence (C45); `x a+b)` accepted (C82); nested ifs panic (C48); if and else both executed (C83);
  a `return` in a loop only ends the iteration (C97); an `if` at the end of a block panics (C98); the value of a bare `return` cannot be read back from a stored sum (C108); functions named AND, equal, SPLIT, ... are shadowed by the builtins, and AND, NAND, OR, NOT, `&&`, `||` panic (C109); the test program codes.go:430-461 computes 686 z^13 instead of 686 x^10 z^3 (C83_repo); `scalarMultiplyFactors` does nothing and is unused (C28_scale_noop); an array parameter used without an index panics (C100); undeclared names in the condition or step of a loop, undeclared arrays with an index and calls of undeclared functions are accepted by Parse and panic only in Execute (C102); a variable may be declared with the name of an array of its block (C103); loops that count below 0 (C47); `+=` panics; `var z` without initialiser discards the block.
* Proof system: in-place addition of equal points (C50, C62); base multiplication is rejected (C51); forgery through F (C53); one gate
  crashes (C54); sparse setup over the wrong domain (C55); no randomisation (C56).
* bn256: `gfP12.Conjugate`, `gfP12.MulScalar` (C59); negative scalars (C61, C76); `twistPoint.Negative` in place (C62); GT.Unmarshal accepts
  everything (C76); stale `t` in `miller` (C74).

## Per property: model, proof, status
- **C01 Field add/sub/neg/double/mul/square are exact modular arithmetic with canonical results** [proved] — Model/Field.lean; one-line functions over Int; proved by Int.emod lemmas, stated as 0<=r<Q and congruence (Int.ModEq).
- **C02 Field inversion and division** [proved] — Model/Field.lean; ModInverse modelled by extended gcd, nil = none; Bezout in ZMod.
- **C03 Exponentiation computes base^e** [partial] — Model/Field.lean; loop on binary digits as well-founded recursion; induction. Exp reduces its exponent mod Q, so the full claim is refuted by a witness and the e<Q part is _partial.
- **C04 Field equality and canonicalisation** [proved] — Model/Field.lean; case analysis of Affine; bytes.Equal ignores sign, shown harmless after Affine.
- **C05 Polynomial evaluation and scalar product over the field** [proved] — Model/Field.lean; Horner recursion, fold; induction on the vector.
- **C06 Random field elements are in range** [proved] — Model/Field.lean; entropy = arbitrary byte list parameter; big-endian value bound.
- **C07 Dense polynomial ring operations are homomorphic** [proved] — Model/DensePoly.lean; loops with slice writes; spec = Polynomial (ZMod q).
- **C08 Dense polynomial division returns quotient and remainder** [partial] — Model/DensePoly.lean; loop invariant a = q*b+rem; refutation witness for divisor with zero leading coefficient.
- **C09 Domain polynomial vanishes exactly on the gate domain** [proved] — Model/DensePoly.lean; product invariant, ZMod q domain.
- **C10 Lagrange interpolation passes through the given points** [proved] — Model/DensePoly.lean; Lagrange bases; uniqueness via degree/roots.
- **C11 Interpolation cache is transparent** [proved] — Model/DensePoly.lean with explicit cache state; invariant 'every cached entry equals the computed base' over call histories.
- **C12 Dense transpose is the matrix transpose** [proved] — Model/DensePoly.lean.
- **C13 Sparse array behaves as a map from index to non-zero integer** [proved] — Model/Avl.lean; inductive tree with stored heights; refinement to finite map over op lists; pointer comparisons modelled by key comparison (equal under the BST invariant, proved).
- **C14 Traversals list every entry once in order** [proved] — same model; in-order lists.
- **C15 No zero is ever stored** [proved] — same model; invariant.
- **C16 Rebalancing always terminates** [proved] — same model; balance as a fuelled loop, proof that a bound on fuel suffices for every tree (lexicographic measure).
- **C17 Removing an absent key leaves the array unchanged** [partial] — same model; refuted by a reachable witness (root not reassigned on error); partial: lookups of untouched histories / when the root does not rotate.
- **C18 No-overwrite insertion** [proved] — same model.
- **C19 Largest/smallest key and array conversion** [proved] — same model.
- **C20 Sparse polynomial operations agree with polynomial algebra** [proved] — Model/SparsePoly.lean on top of the AVL model; spec = Polynomial (ZMod q).
- **C21 Sparse polynomial evaluation** [proved] — Model/SparsePoly.lean; memo invariant 'entry k holds x^k'.
- **C22 Sparse division returns quotient and remainder** [proved] — Model/SparsePoly.lean; fuelled loop, invariant + termination measure.
- **C23 Sparse division terminates** [partial] — Refuted for constant divisors (loop never reaches an exit state); partial = C22 termination.
- **C24 Sparse interpolation** [proved] — Model/SparsePoly.lean with explicit cache.
- **C25 Sparse transpose** [proved] — Model/SparsePoly.lean.
- **C26 Sparse scalar product is a field element congruent to the inner product** [proved] — Model/SparsePoly.lean.
- **C27 Concurrent traversal sees a consistent snapshot** [proved] — Small-step interleaving model of producer/consumer over a list of cells; invariant over all schedules.
- **C28 Linear-form algebra is sound** [proved] — Model/Factors.lean; denotation of linear forms in ZMod q.
- **C29 Gate identity only depends on what the gate computes** [partial] — Model/Gates.lean; hash is an arbitrary function; refuted by witness program; partial for same-type gates.
- **C30 Every variable has its own witness position** [partial] — Model/R1CS.lean; indexMap as list; refuted for duplicate publics; partial when names are distinct.
- **C31 Constraint rows mean what the gates say** [partial] — Model/R1CS.lean; per-gate row semantics.
- **C32 Dense and sparse constraint generation agree** [proved] — Model/R1CS.lean; dense vs sparse rows.
- **C33 A computed witness satisfies the constraint system (dense)** [proved] — Model/Witness.lean; fold over constraints, invariant.
- **C34 A computed witness satisfies the constraint system (sparse)** [proved] — Model/Witness.lean.
- **C35 Witness calculation accepts satisfiable inputs (dense)** [proved] — Model/Witness.lean; refutation witness for the sparse routine, partial for the dense.
- **C36 SPLIT yields bits** [partial] — Corollary of C31 on the SPLIT gates.
- **C37 SPLIT yields the bits of x** [partial] — Refuted: explicit second decomposition.
- **C38 Compiled expressions compute what they say** [proved] — Model/Compile.lean; expression compiler; induction on expressions.
- **C39 Using a constant does not change it** [partial] — Model/Heap.lean: the program layer with addresses of big.Int cells; simulation by the value model as long as no constant is negated in place (Proofs/HeapForms … HeapRun), ownership invariant (HeapOwn, HeapShare, HeapShareRun), programs that subtract only computed operands (HeapSafe, HeapSafeRun, HeapTidy, HeapCalm; Spec/Calm.lean). Refuted in general.
- **C40 Arithmetic never crashes on well-formed expressions** [partial] — Model/Factors.lean; refuted by witnesses, partial otherwise.
- **C41 Public signal order** [proved] — Model/R1CS.lean.
- **C42 Tokenisation is faithful** [proved] — Model/Lexer.lean.
- **C43 Tokenisation terminates** [partial] — Model/Lexer.lean; refuted (input `$`); partial for supported alphabet.
- **C44 Bracket splitting is balanced** [proved] — Model/Parser.lean.
- **C45 Arithmetic parsing follows the conventional order** [partial] — Model/Parser.lean; refuted; right-nesting theorem proved instead.
- **C46 Array names are unambiguous** [proved] — Model/Parser.lean.
- **C47 Static conditions** [partial] — Model/Program.lean (checkStatic, FOR); Spec/GoLoop.lean for the loop; refuted for counters below 0.
- **C48 If/else chains can be nested** [partial] — Model/Static.lean; refuted.
- **C49 Satisfied constraints iff domain polynomial divides** [proved] — Model/Snark.lean over Polynomial (ZMod q) denotations of the dense model.
- **C50 Completeness of the proof system** [partial] — Model/Snark.lean; abstract bilinear groups as parameters; verification equation in exponents.
- **C51 Completeness with base multiplication** [partial] — Model/Snark.lean; accept iff X(g^{E(x)}) = G(x); refuted with witness.
- **C52 Public inputs are bound** [proved] — Model/Snark.lean.
- **C53 Soundness: only satisfying witnesses give accepted proofs** [partial] — Refuted: forging prover.
- **C54 Proof generation never crashes for a satisfied system** [partial] — Refuted for one gate; partial for >= 2 gates.
- **C55 Sparse and dense pipelines agree** [partial] — Refuted; partial when counts agree.
- **C56 Zero knowledge: proofs are re-randomised** [partial] — Proof generation is a function of key and witness: refuted by determinism.
- **C57 gfP2 arithmetic is the quadratic extension field** [proved] — Model/Tower.lean; commutes with Mathlib quadratic extension.
- **C58 gfP6 arithmetic is the cubic extension** [proved] — Model/Tower.lean.
- **C59 gfP12 arithmetic is the quadratic extension of gfP6** [partial] — Model/Tower.lean; deviations of Conjugate/MulScalar exhibited.
- **C60 Curve operations implement the elliptic curve group law** [proved] — Model/Curve.lean; Mathlib WeierstrassCurve Jacobian points.
- **C61 Scalar multiplication** [partial] — Model/Curve.lean.
- **C62 Group operations may be applied in place** [partial] — Model/Curve.lean with explicit aliasing; refuted for Double in place.
- **C63 The generator has the claimed prime order** [proved] — Proofs/Primes.lean: Pratt/Pocklington certificates checked by the kernel; Order*G by kernel evaluation of the model.
- **C64 Marshal/Unmarshal round trip** [proved] — Model/Marshal.lean.
- **C65 Miller loop digits** [proved] — kernel evaluation of the constant table.
- **C66 Pairing with infinity and empty products** [proved] — Model/Pair.lean, pairing core abstract.
- **C67 Number pool discipline** [proved] — Model/Pool.lean.
- **C68 addGateConstraint returns the sum** [partial] — Model/Compile.lean; exact value, then refutation.
- **C69 A computed witness satisfies any constraint system** [partial] — Model/Witness.lean; both calculators on arbitrary systems.
- **C70 Witness calculation accepts satisfiable inputs (sparse)** [partial] — Model/Witness.lean; sparse calculator.
- **C71 Frobenius maps** [proved] — Model/Tower.lean; Frobenius as ring homomorphism on the basis, kernel-checked constants.
- **C72 Final exponentiation** [proved] — Model/Optate.lean; exponent arithmetic.
- **C73 PairingCheck decides the product equation** [proved] — Model/Optate.lean; fold over the lists.
- **C74 The pairing computes the optimal ate pairing** [partial] — Model/Optate.lean against Spec/Ate.lean (line functions on affine points).
- **C75 Non-degeneracy of the pairing** [proved] — kernel evaluation on the generators plus group theory.
- **C76 GT operations and encoding** [partial] — Model/Optate.lean.
- **C77 Bilinearity of the pairing** [proved] — divisor-free proof of bilinearity of the optimal ate pairing (Proofs/Ate*).
- **C78 The parser sees every token once** [partial] — Model/Lexer.lean, nextTokens / stackAllTokens.
- **C79 Reading a text synchronously ends** [partial] — Model/Lexer.lean; capacity of the channel.
- **C80 Blanks between tokens have no meaning** [partial] — Model/Lexer.lean against Spec/Lexer.lean.
- **C81 Reading a text asynchronously delivers all tokens** [proved] — Model/Lexer.lean: interleaving semantics.
- **C82 Malformed brackets are rejected** [partial] — Model/Parser.lean; witness.
- **C83 Exactly one branch of an if chain is executed** [partial] — Model/Program.lean; witness program.
- **C84 Gates of programs with functions, loops and arrays are sound** [proved] — Spec/Lang.lean: source language and interpreter; simulation of the compiler run (Proofs/Sim*), gates imply the interpreter's result.
- **C85 Gates of programs with functions, loops and arrays are complete** [proved] — same simulation; the interpreter's run gives wire values.
- **C86 Constraint rows of programs with functions, loops and arrays** [proved] — C84, C85 and C31.
- **C87 Calculated witnesses of programs with functions, loops and arrays are right** [proved] — C86 and C69.
- **C88 Witnesses of programs with functions, loops and arrays are found** [partial] — C86 and C35 / C70.
- **C89 The parser hands over the program that was written** [proved] — Spec/Write.lean, Spec/Text.lean; induction over programs through statementMode and the lexer.
- **C90 From source text to constraint rows** [proved] — C86 and C89.
- **C91 A calculated witness consists of field elements** [proved] — Invariant of the witness loops: every stored value is reduced.
- **C92 From source text to an accepted proof** [partial] — C90, C88, C91, C41, C50 on bn256.
- **C93 Accepted proofs come from runs of the source program** [partial] — C90 and C53 on bn256 against linear provers with trivial F.
- **C94 The trusted setup needs a private wire; shape of the key** [proved] — for every api of groups: sizes of the lists from the loops of the setup.
- **C95 A variable keeps the value assigned to it** [proved] — primitiveReturnfunction / combineFunctions build a function object; calling it gives a form with the same value for all wires.
- **C96 An `if` without `else` behaves like its chosen branch** [partial] — `if` is in the source language of C84; a run with the `if` is a run with its branch in its place (returns_cond), then C84 / C85.
- **C97 A `return` in a loop ends the function** [partial] — compile of FOR and FUNCTION_CALL never reports a return (induction on the fuel); a text as counterexample.
- **C98 An `if` may be the last statement of a block** [partial] — statementMode on a written `if` with nothing after it gives none.
- **C99 A `return` in an `if` ends the function** [partial] — `return` in an `if` is in the source language of C84 (`finish`); a run with it is a run of the program that ends there, or without it (returns_exit), then C84 / C85.
- **C100 The parser accepts every well-formed program** [proved] — totality of the model of Parse on emitted programs: induction over statements, each step of preCompile and contextCheck finds the names it asks for (block_total, program_total); C89 for the text.
- **C101 Whenever a program executes, its constraint rows exist** [proved] — the names in gates are publics, parameters or gate results (Made), so the index map has them; totality of the row functions (RowsTotal).
- **C102 Undeclared names are rejected** [proved] — what preCompile has checked when it returns, for all programs: the words visible from a block are bounded by an invariant over the chain of contexts (Vis); induction over the fuel, blocks inside are built after the rest of the block around them (Proofs/Scope.lean).
- **C103 Names declared twice and misplaced publics are rejected** [proved] — the same induction; names declared before are in the maps of the block, so declaring them again fails.
- **C104 Compiling a text has one result** [proved] — `compile` is monotone in its recursive calls (every operation of the model is), so two depths that both suffice agree; Parse is determined by C89/C90.
- **C105 Test programs of the repository are right for all inputs** [proved] — C90 for the texts; the source semantics is computed for symbolic inputs, the compile run and its conditions are computed by the kernel, C104 transfers them to every run.
- **C106 Test programs with recursion, closures and globals are right for all inputs** [proved] — the rows of each text are computed by the kernel (decide +kernel on an equation between the compiler run and literal rows); C104 for any text shows that every compilation gives these rows; soundness and completeness are then algebra over ZMod, for all inputs.
- **C107 Comparison of arrays** [proved] — induction over the arrays.
- **C108 A function that ends with a bare return can be used as a value** [partial] — refuted by a text: the kernel reduces the run at an arbitrary larger depth to a panic, C104 excludes every other run; the cause for every modulus; two texts for which the claim holds, for all inputs.
- **C109 A declared function is what a call under its name runs** [partial] — refuted by texts: a program with its own AND does not compile at any depth (the same program with the name `and` computes the product for all inputs), its own `equal` is replaced by a constraint (all witnesses); AND, NAND, OR, NOT panic in every state. Other names: C84-C90.
- **C110 The compiler finishes on systems of polynomial equations** [proved] — induction on the expression: the form that `compile` returns is non-empty, has positive canonical coefficients whose sum is at most the value of the expression at 1, hence below the modulus, so no greatest common divisor is 0 and no gate without a name arises; the parser's memory has every parameter as a leaf object without functions (invariant of Build*.lean); then induction on the list of equations. Indices: `resolveArrayName` on literals. From the text: C100, C101; the values: C90. Counterexample with 0 by kernel reduction and C104.
- **C111 The circuit is no larger than the source** [proved] — counted along the induction of C110: additions add no gate, a product at most one (`Add` keeps a gate that is already there), `equal` and `completeFunction` at most one; C104 carries the bound to every depth.
- **C112 Systems of equations: solutions are accepted, nothing else is** [partial] — see the note in MANIFEST.json.
