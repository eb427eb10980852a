{"id": "C01", "title": "Field add/sub/neg/double/mul/square are exact modular arithmetic with canonical results", "statement": "For a field object with modulus Q > 0 and any integers a, b (negative or unreduced included), Add, Sub, Neg, Double, Mul, Square return the unique integer in [0,Q) congruent to a+b, a-b, -a, 2a, ab, a*a modulo Q.", "quantifier": "all moduli Q > 0 and all integers a, b", "why_tests_cant": "integers are unbounded; tests sample a few small residues", "anchors": ["utils/finiteField.go: Add, Double, Sub, Neg, Mul, Square, MulScalar"]}
{"id": "C02", "title": "Field inversion and division", "statement": "For prime Q: Inverse(a)*a is 1 mod Q for every a not divisible by Q, Div(a,b) is the unique element of [0,Q) with Div(a,b)*b = a mod Q, Inverse(0) is 0 without any error, and Inverse of a non-zero multiple of Q yields no value (nil) so that Div by it crashes.", "quantifier": "all primes Q, all integers a, b", "why_tests_cant": "the claim ranges over every residue and every unreduced representative", "anchors": ["utils/finiteField.go: Inverse, Div"]}
{"id": "C03", "title": "Exponentiation computes base^e", "statement": "ExpInt(base,e) is base^e mod Q for every base and every unsigned e; Exp(base,e) is base^e mod Q for every exponent e >= 0.", "quantifier": "all primes Q, bases, exponents", "why_tests_cant": "loop over the bits of an unbounded exponent; failing exponents are those >= Q which tests never use", "anchors": ["utils/finiteField.go: Exp, ExpInt"]}
{"id": "C04", "title": "Field equality and canonicalisation", "statement": "Affine(a) is the canonical representative of a; Equal(a,b) is true exactly when a and b are congruent modulo Q; IsZero holds only for the integer 0.", "quantifier": "all Q > 0 and all integers a, b including negatives", "why_tests_cant": "negative/unreduced representatives are infinitely many", "anchors": ["utils/finiteField.go: Affine, Equal, IsZero"]}
{"id": "C05", "title": "Polynomial evaluation and scalar product over the field", "statement": "EvalPoly(v,x) is congruent to sum v_i x^i and is canonical when v has at least two coefficients; ScalarProduct(l,r) is the canonical inner product when lengths agree and aborts otherwise.", "quantifier": "all coefficient vectors of any length, all points", "why_tests_cant": "vectors of every length", "anchors": ["utils/finiteField.go: EvalPoly, ScalarProduct"]}
{"id": "C06", "title": "Random field elements are in range", "statement": "Whatever bytes the entropy source returns, Rand() returns an integer r with 0 <= r < 2^(8*(bitlen/8-1)) < Q; in particular it is canonical, never covers residues >= 2^240 for the bn256 group order, and 0 is possible.", "quantifier": "all byte strings of the requested length, all Q with at least 16 bits", "why_tests_cant": "depends on every possible random byte string", "anchors": ["utils/finiteField.go: Rand"]}
{"id": "C07", "title": "Dense polynomial ring operations are homomorphic", "statement": "Add, Sub, Mul, MulSimple, MulScalar, AddPolynomials, LinearCombine on coefficient slices compute, coefficient by coefficient in the field, the sum, difference, product, scalar multiple of the polynomials denoted, for slices of any (unequal) lengths; Mul of two non-empty slices has length len a + len b - 1; MulSimple is the componentwise product on slices of equal length.", "quantifier": "all coefficient slices of any lengths", "why_tests_cant": "unbounded lengths and coefficient values", "anchors": ["utils/polynomialField.go: Add, Sub, Mul, MulSimple, MulScalar, AddPolynomials, LinearCombine"]}
{"id": "C08", "title": "Dense polynomial division returns quotient and remainder", "statement": "For a dividend at least as long as the divisor, Div(a,b) returns (q,r) with a = q*b + r as polynomials over F_Q and len r < len b.", "quantifier": "all dividends and divisors with len a >= len b >= 1", "why_tests_cant": "all lengths and coefficients; the failing divisors (leading coefficient congruent to 0) look like ordinary input", "anchors": ["utils/polynomialField.go: Div"]}
{"id": "C09", "title": "Domain polynomial vanishes exactly on the gate domain", "statement": "DomainPolynomial(n), n >= 1, is the product of (x-i) for i in 0..n-1: monic of length n+1, and evaluates to 0 at a field point exactly when that point is one of 0..n-1.", "quantifier": "all n and all evaluation points", "why_tests_cant": "n and the field are unbounded", "anchors": ["utils/polynomialField.go: DomainPolynomial"]}
{"id": "C10", "title": "Lagrange interpolation passes through the given points", "statement": "LagrangeInterpolation(v) for len v <= Q, v non-empty, denotes the unique polynomial of degree < len v with value v_i at i for every i; NewPolZeroAt(pos,n,h) is the polynomial that is h at pos and 0 at the other points of 0..n-1.", "quantifier": "all value vectors of any length up to Q", "why_tests_cant": "interpolation of every length", "anchors": ["utils/polynomialField.go: LagrangeInterpolation, NewPolZeroAt"]}
{"id": "C11", "title": "Interpolation cache is transparent", "statement": "A field object caches Lagrange bases across calls; after any sequence of earlier interpolation calls on any vectors, LagrangeInterpolation(v) returns exactly what a fresh field object returns.", "quantifier": "all histories of earlier calls on the same object", "why_tests_cant": "history dependence: tests use one fresh object", "anchors": ["utils/polynomialField.go: LagrangeInterpolation (basesClassic)", "utils/finiteField.go: Fq.basesClassic"]}
{"id": "C12", "title": "Dense transpose is the matrix transpose", "statement": "Transpose(m) of a rectangular r x c matrix (r >= 1) is the c x r matrix with out[j][i] = m[i][j]; applying it twice (c >= 1) gives m back.", "quantifier": "all rectangular matrices", "why_tests_cant": "all dimensions", "anchors": ["utils/polynomialField.go: Transpose"]}
{"id": "C13", "title": "Sparse array behaves as a map from index to non-zero integer", "statement": "After any sequence of Put / Insert / Remove-of-a-present-key operations starting from the empty array, Get/Has return exactly what a mathematical map (missing = 0, writing 0 deletes) would return, whatever rotations happened.", "quantifier": "all operation sequences over all keys and values", "why_tests_cant": "rotations depend on the whole history; stale heights make many shapes reachable only by long histories", "anchors": ["utils/avl.go: Put, Insert, Get, Has, Remove"]}
{"id": "C14", "title": "Traversals list every entry once in order", "statement": "AllNodes and DecendingNodes list the stored entries with strictly decreasing keys, ChannelNodes delivers the same entries in the requested direction (increasing or decreasing), each stored entry exactly once, and Size equals the number of entries.", "quantifier": "all reachable trees", "why_tests_cant": "all shapes", "anchors": ["utils/avl.go: AllNodes, DecendingNodes, ChannelNodes, Size"]}
{"id": "C15", "title": "No zero is ever stored", "statement": "No reachable sparse array contains an entry whose stored value is the integer 0.", "quantifier": "all operation sequences", "why_tests_cant": "all histories", "anchors": ["utils/avl.go: Put, InsertNoOverwriteAllowed, NewSparseArrayFromArray"]}
{"id": "C16", "title": "Rebalancing always terminates", "statement": "The rebalancing loop inside Put/Remove terminates for every tree whatever its (possibly stale) stored heights, so every Put, Insert and Remove returns.", "quantifier": "all trees, including ones with arbitrary wrong stored heights", "why_tests_cant": "termination for all shapes cannot be tested", "anchors": ["utils/avl.go: balance, rotate_left, rotate_right, Put, Remove"]}
{"id": "C17", "title": "Removing an absent key leaves the array unchanged", "statement": "Remove(k) for a key that is not present reports an error and changes no entry of the array.", "quantifier": "all reachable arrays, all absent keys", "why_tests_cant": "the damaging shapes need specific insertion/removal histories", "anchors": ["utils/avl.go: Remove (tree and node), balance"]}
{"id": "C18", "title": "No-overwrite insertion", "statement": "InsertNoOverwriteAllowed(k,v) either stores v at an empty key or aborts, and it aborts exactly when a non-zero value is already stored at k; it never changes other keys.", "quantifier": "all reachable arrays, keys, values", "why_tests_cant": "all histories", "anchors": ["utils/avl.go: InsertNoOverwriteAllowed"]}
{"id": "C19", "title": "Largest/smallest key and array conversion", "statement": "MaxPower returns the largest stored key (0 on the empty array); NewSparseArrayFromArray(v) stores exactly the non-zero entries of v; ToArray(n) for n > MaxPower returns the array of length n whose i-th entry is Get(i); ToArray(NewSparseArrayFromArray v) gives v back.", "quantifier": "all arrays and lengths", "why_tests_cant": "all sizes", "anchors": ["utils/avl.go: MaxPower, MaxNode, MinNode, ToArray, NewSparseArrayFromArray, NewSparseArrayWith"]}
{"id": "C20", "title": "Sparse polynomial operations agree with polynomial algebra", "statement": "MulSparse, MulSparseScalar, AddToSparse, SubToSparse, Clone, LinearCombine, AddPolynomials compute product, scalar multiple, sum, difference, copy, linear combination of the denoted polynomials over F_Q.", "quantifier": "all sparse arrays", "why_tests_cant": "unbounded supports", "anchors": ["utils/sparsePolynomial.go: MulSparse, MulSparseScalar, AddToSparse, SubToSparse, Clone, LinearCombine, AddPolynomials"]}
{"id": "C21", "title": "Sparse polynomial evaluation", "statement": "EvalSparsePoly(p,x) equals the value of the polynomial at x, for every canonical x, whatever addition chain of memoised powers it chooses.", "quantifier": "all sparse arrays and points", "why_tests_cant": "the memo of powers depends on the whole exponent set", "anchors": ["utils/sparsePolynomial.go: EvalSparsePoly, euclid"]}
{"id": "C22", "title": "Sparse division returns quotient and remainder", "statement": "For canonical dividend and a divisor of degree >= 1, DivideSparse returns (q,r) with a = q*b + r and r of degree below b.", "quantifier": "all canonical dividends/divisors", "why_tests_cant": "all supports", "anchors": ["utils/sparsePolynomial.go: DivideSparse"]}
{"id": "C23", "title": "Sparse division terminates", "statement": "DivideSparse returns for every non-zero divisor.", "quantifier": "all dividends and non-zero divisors", "why_tests_cant": "non-termination cannot be observed by a finite test", "anchors": ["utils/sparsePolynomial.go: DivideSparse"]}
{"id": "C24", "title": "Sparse interpolation", "statement": "InterpolateSparseArray(v,n) returns, whatever was interpolated earlier on the same object, the polynomial of degree < n with value v_i at every i in 0..n-1 (0 where v has no entry), and aborts exactly when v has a key >= n.", "quantifier": "all sparse arrays, all n <= Q, all call histories", "why_tests_cant": "all sizes and cache histories", "anchors": ["utils/sparsePolynomial.go: InterpolateSparseArray"]}
{"id": "C25", "title": "Sparse transpose", "statement": "TransposeSparse(m,w) returns w sparse arrays with out[j][i] = m[i][j], for row lists whose keys are below w.", "quantifier": "all row lists", "why_tests_cant": "all dimensions", "anchors": ["utils/sparsePolynomial.go: TransposeSparse", "circuitcompiler/ER1CS.go: TransposeSparse"]}
{"id": "C26", "title": "Sparse scalar product is a field element congruent to the inner product", "statement": "SparseScalarProduct(w,v) is congruent mod Q to sum over stored k of v_k*w[k], and aborts exactly when some stored key is not an index of w.", "quantifier": "all sparse arrays and witness vectors", "why_tests_cant": "all sizes", "anchors": ["utils/sparsePolynomial.go: SparseScalarProduct"]}
{"id": "C27", "title": "Concurrent traversal sees a consistent snapshot", "statement": "Under every interleaving of the producer goroutine of ChannelNodes and the consumer that overwrites the entries it receives with non-zero values (as MulSparseScalar does), the consumer receives every entry exactly once and in order, and the channel is closed.", "quantifier": "all schedules", "why_tests_cant": "schedules", "anchors": ["utils/avl.go: ChannelNodes", "utils/sparsePolynomial.go: MulSparseScalar"]}
{"id": "C28", "title": "Linear-form algebra is sound", "statement": "For every assignment of field values to names, the value of the result of addFactors, mulFactors (one side constant), negateFactors, invertFactors on linear forms is the sum, product, negation, inverse of the values of the arguments.", "quantifier": "all linear forms and all assignments", "why_tests_cant": "all programs", "anchors": ["circuitcompiler/factorHandling.go: addFactors, mulFactors, negateFactors, invertFactors, extractGCD, extractConstant"]}
{"id": "C29", "title": "Gate identity only depends on what the gate computes", "statement": "Two gates collapse into one only if they constrain the same thing; in particular an equality check on a and b is never discarded because a product of a and b was computed earlier.", "quantifier": "all gate sequences, any hash function", "why_tests_cant": "requires reasoning about all programs and any hash function", "anchors": ["circuitcompiler/gate.go: setAndGetID", "circuitcompiler/Programm.go: gateContainer.Add"]}
{"id": "C30", "title": "Every variable has its own witness position", "statement": "After compilation every public input, main input and gate output is assigned its own position in the witness: no two distinct names share a position, the constant 1 is at position 0 and public inputs come first.", "quantifier": "all programs", "why_tests_cant": "all programs", "anchors": ["circuitcompiler/Programm.go: GatesToR1CS, GatesToSparseR1CS (indexMap)"]}
{"id": "C31", "title": "Constraint rows mean what the gates say", "statement": "For every gate list, a witness satisfies the produced rows (L.w)(R.w)+X(g^(E.w)) = O.w exactly when every gate's equation holds for the named values: product, equality, boolean, base multiplication, addition, sum check.", "quantifier": "all gate lists and all witnesses", "why_tests_cant": "all programs and all witnesses", "anchors": ["circuitcompiler/Programm.go: GatesToR1CS"]}
{"id": "C32", "title": "Dense and sparse constraint generation agree", "statement": "For gate lists in which no row mentions an identifier twice, GatesToSparseR1CS and GatesToR1CS describe the same matrix entries modulo Q.", "quantifier": "all such gate lists", "why_tests_cant": "all programs", "anchors": ["circuitcompiler/Programm.go: GatesToR1CS, GatesToSparseR1CS"]}
{"id": "C33", "title": "A computed witness satisfies the constraint system (dense)", "statement": "For the constraint system of a compiled program: whenever CalculateWitness returns a witness without error, every constraint holds for it modulo Q, the witness starts with 1, carries the given inputs at their positions, and the source program evaluates on these inputs to the value of the returned expression (unless it divides by zero).", "quantifier": "all compiled straight-line programs, inputs and randomizers", "why_tests_cant": "all programs and inputs", "anchors": ["circuitcompiler/ER1CS.go: CalculateWitness"]}
{"id": "C34", "title": "A computed witness satisfies the constraint system (sparse)", "statement": "For the sparse constraint system of a compiled program: whenever CalculateSparseWitness returns a witness without error, every constraint holds for it modulo Q, the witness starts with 1, carries the given inputs at their positions, and the source program evaluates on these inputs to the value of the returned expression (unless it divides by zero).", "quantifier": "all compiled straight-line programs, inputs and randomizers", "why_tests_cant": "all programs and inputs", "anchors": ["circuitcompiler/ER1CS.go: CalculateSparseWitness"]}
{"id": "C35", "title": "Witness calculation accepts satisfiable inputs (dense)", "statement": "If a source program evaluates on some inputs, then CalculateWitness on its constraint system with these inputs (in canonical form) returns without error, for every randomizer, and the witness gives the returned expression the value of the program.", "quantifier": "all compiled straight-line programs, inputs and randomizers", "why_tests_cant": "all programs and inputs", "anchors": ["circuitcompiler/ER1CS.go: CalculateWitness"]}
{"id": "C36", "title": "SPLIT yields bits", "statement": "For every witness accepted by the constraints emitted for SPLIT(x), every bit wire is 0 or 1 and sum bit_i 2^i = x mod Q.", "quantifier": "all witnesses", "why_tests_cant": "all witnesses", "anchors": ["circuitcompiler/Programm.go: compile (SPLIT), GatesToR1CS (zeroOrOne, sumCheck)"]}
{"id": "C37", "title": "SPLIT yields the bits of x", "statement": "The bits accepted for SPLIT(x) are uniquely determined by x.", "quantifier": "all x", "why_tests_cant": "only x below 2^254-Q have a second decomposition", "anchors": ["circuitcompiler/Programm.go: compile (SPLIT)"]}
{"id": "C38", "title": "Compiled expressions compute what they say", "statement": "For every arithmetic expression over inputs and constants built from +, -, *, / and every assignment for which no divisor is zero, the gates emitted by the compiler have a witness, and in every witness the returned linear form has the value of the expression.", "quantifier": "all expression trees and inputs", "why_tests_cant": "all programs and inputs", "anchors": ["circuitcompiler/Programm.go: compile (arithmetic)", "circuitcompiler/factorHandling.go"]}
{"id": "C39", "title": "Using a constant does not change it", "statement": "Evaluating an expression twice yields the same value; in particular subtracting a constant variable leaves the variable unchanged.", "quantifier": "all programs", "why_tests_cant": "aliasing through shared big integers depends on the program's history", "anchors": ["circuitcompiler/factorHandling.go: negateFactors", "circuitcompiler/Programm.go: compile"]}
{"id": "C40", "title": "Arithmetic never crashes on well-formed expressions", "statement": "Multiplying or dividing linear forms whose coefficients happen to be zero yields zero, not a crash; division by the constant 0 is reported.", "quantifier": "all expressions", "why_tests_cant": "all expressions", "anchors": ["circuitcompiler/factorHandling.go: extractGCD, invertFactors", "circuitcompiler/Programm.go: compile"]}
{"id": "C41", "title": "Public signal order", "statement": "CombineInputs pairs the i-th declared public/main input with the i-th supplied value and aborts on a length mismatch; the first positions of the witness are 1 and the public inputs in declaration order.", "quantifier": "all input lists", "why_tests_cant": "all lengths", "anchors": ["circuitcompiler/Programm.go: CombineInputs, GlobalInputCount"]}
{"id": "C42", "title": "Tokenisation is faithful", "statement": "For source text over the supported alphabet the token values in order, with whitespace and comments put back, spell the source.", "quantifier": "all supported source texts", "why_tests_cant": "all strings", "anchors": ["circuitcompiler/lexer.go"]}
{"id": "C43", "title": "Tokenisation terminates", "statement": "The lexer reaches end of input on every source text.", "quantifier": "all source texts", "why_tests_cant": "non-termination", "anchors": ["circuitcompiler/lexer.go: NextToken, IdentState"]}
{"id": "C44", "title": "Bracket splitting is balanced", "statement": "Splitting a token list at a closing bracket returns the shortest prefix in which the bracket opened first is closed, and prefix ++ rest is the input; nested brackets are never torn.", "quantifier": "all token lists", "why_tests_cant": "all nesting depths", "anchors": ["circuitcompiler/parser.go: splitAtClosingBrackets, splitTokensAtFirstString, stripOfBrackets"]}
{"id": "C45", "title": "Arithmetic parsing follows the conventional order", "statement": "a-b-c parses as (a-b)-c and a*b+c as (a*b)+c.", "quantifier": "all expressions", "why_tests_cant": "all expressions", "anchors": ["circuitcompiler/parser.go: parseExpression"]}
{"id": "C46", "title": "Array names are unambiguous", "statement": "ArrayStringBuild enumerates exactly the product of the dimensions, in row-major order, without duplicates.", "quantifier": "all dimension lists", "why_tests_cant": "all dimensions", "anchors": ["circuitcompiler/parser.go: ArrayStringBuild"]}
{"id": "C47", "title": "Static conditions", "statement": "checkStaticCondition on two constants returns the mathematical comparison and a static for loop executes its body as often as the Go loop would.", "quantifier": "all bounds and steps", "why_tests_cant": "all bounds", "anchors": ["circuitcompiler/circuit.go: checkStaticCondition", "circuitcompiler/Programm.go: compile (FOR)"]}
{"id": "C48", "title": "If/else chains can be nested", "statement": "Splitting an if chain takes exactly the tokens up to the end of that chain, for any nesting of further ifs inside.", "quantifier": "all nestings", "why_tests_cant": "all nestings", "anchors": ["circuitcompiler/circuit.go: splitAtIfEnd, splitAtNestedEnd"]}
{"id": "C49", "title": "Satisfied constraints iff domain polynomial divides", "statement": "With A, B, C the witness combinations of the interpolated constraint columns, the combined polynomial A*B+G-C vanishes on 0..n-1 exactly when the witness satisfies every constraint, and then division by the domain polynomial leaves remainder zero.", "quantifier": "all constraint systems and witnesses", "why_tests_cant": "all systems and witnesses", "anchors": ["zkSNARK/wol19.go: CombinePolynomials2", "circuitcompiler/ER1CS.go: ER1CSToEAP"]}
{"id": "C50", "title": "Completeness of the proof system", "statement": "For a constraint system without base-multiplication, any witness that satisfies it, at least two gates, and any trusted-setup randomness with invertible gamma and delta, the generated proof is accepted by VerifyProof with the matching public signals.", "quantifier": "all systems, witnesses, setup randomness", "why_tests_cant": "all randomness", "anchors": ["zkSNARK/wol19.go: GenerateTrustedSetup, GenerateProofs, VerifyProof"]}
{"id": "C51", "title": "Completeness with base multiplication", "statement": "For every constraint system and satisfying witness the honest proof is accepted.", "quantifier": "all systems, witnesses, setup randomness", "why_tests_cant": "depends on the secret evaluation point", "anchors": ["zkSNARK/wol19.go: GenerateProofs, VerifyProof"]}
{"id": "C52", "title": "Public inputs are bound", "statement": "VerifyProof rejects when the number of public signals differs from the setup; two different public vectors are both accepted for one proof only if they agree on the public commitment.", "quantifier": "all proofs and signals", "why_tests_cant": "all proofs", "anchors": ["zkSNARK/wol19.go: VerifyProof"]}
{"id": "C53", "title": "Soundness: only satisfying witnesses give accepted proofs", "statement": "A prover that only knows the proving key cannot produce an accepted proof from an assignment that violates a constraint.", "quantifier": "all provers using the published key", "why_tests_cant": "adversarial prover", "anchors": ["zkSNARK/wol19.go: VerifyProof"]}
{"id": "C54", "title": "Proof generation never crashes for a satisfied system", "statement": "GenerateProofs returns for every system with at least one gate and every satisfying witness.", "quantifier": "all systems", "why_tests_cant": "all systems", "anchors": ["zkSNARK/wol19.go: GenerateProofs"]}
{"id": "C55", "title": "Sparse and dense pipelines agree", "statement": "The sparse trusted setup and the sparse prover interpolate over the same domain as the gates.", "quantifier": "all systems", "why_tests_cant": "all systems where number of wires differs from number of gates", "anchors": ["circuitcompiler/ER1CS.go: ER1CSToEAPSparse", "zkSNARK/wol19.go: GenerateTrustedSetup_Sparse"]}
{"id": "C56", "title": "Zero knowledge: proofs are re-randomised", "statement": "Two proofs for the same witness and key differ / hide the witness.", "quantifier": "all keys and witnesses", "why_tests_cant": "distributional", "anchors": ["zkSNARK/wol19.go: GenerateProofs"]}
{"id": "C57", "title": "gfP2 arithmetic is the quadratic extension field", "statement": "Add, Sub, Double, Negative, Conjugate, Mul, MulScalar, MulXi, Square, Invert, Exp compute the field operations of F_p[i]/(i^2+1).", "quantifier": "all elements", "why_tests_cant": "p^2 elements", "anchors": ["pairing/gfp2.go"]}
{"id": "C58", "title": "gfP6 arithmetic is the cubic extension", "statement": "Add, Sub, Mul, MulTau, Square, Invert compute the operations of F_p2[tau]/(tau^3-xi).", "quantifier": "all elements", "why_tests_cant": "p^6 elements", "anchors": ["pairing/gfp6.go"]}
{"id": "C59", "title": "gfP12 arithmetic is the quadratic extension of gfP6", "statement": "Mul, Square, Exp, Invert compute the operations of F_p6[omega]/(omega^2-tau); Conjugate returns the conjugate and MulScalar multiplies its first argument.", "quantifier": "all elements", "why_tests_cant": "p^12 elements", "anchors": ["pairing/gfp12.go"]}
{"id": "C60", "title": "Curve operations implement the elliptic curve group law", "statement": "For points on the curve in any Jacobian representation, Add, Double and Negative represent the group operations of y^2=x^3+3 and the result is on the curve; likewise on the twist.", "quantifier": "all pairs of points and representations", "why_tests_cant": "all points incl. equal, opposite, infinity", "anchors": ["pairing/curve.go: Add, Double, Negative, IsOnCurve", "pairing/twist.go"]}
{"id": "C61", "title": "Scalar multiplication", "statement": "ScalarMult(P,k) represents k times P for every k >= 0; MakeAffine does not change the point represented.", "quantifier": "all points and scalars", "why_tests_cant": "all scalars", "anchors": ["pairing/curve.go: Mul, MakeAffine", "pairing/twist.go"]}
{"id": "C62", "title": "Group operations may be applied in place", "statement": "The result of Add/Double does not depend on whether the receiver is one of the operands (e.Add(e,f)).", "quantifier": "all points", "why_tests_cant": "only equal operands fail", "anchors": ["pairing/curve.go: Add, Double", "pairing/twist.go", "pairing/bn256.go: G1.Add, G2.Add"]}
{"id": "C63", "title": "The generator has the claimed prime order", "statement": "P and Order are prime, equal the BN formulas in u, and Order times the G1 generator is the point at infinity, so group elements k*G depend only on k mod Order.", "quantifier": "all scalars k", "why_tests_cant": "primality and order are universal statements", "anchors": ["pairing/constants.go", "pairing/curve.go: curveGen"]}
{"id": "C64", "title": "Marshal/Unmarshal round trip", "statement": "Unmarshal(Marshal(P)) represents P for every curve point P; Unmarshal accepts only encodings of curve points (or the all-zero infinity) and returns false on wrong lengths.", "quantifier": "all points and all byte strings", "why_tests_cant": "all byte strings", "anchors": ["pairing/bn256.go: G1.Marshal, G1.Unmarshal, G2.Marshal, G2.Unmarshal"]}
{"id": "C65", "title": "Miller loop digits", "statement": "sixuPlus2NAF is a signed binary expansion of 6u+2.", "quantifier": "the constant table", "why_tests_cant": "a fixed fact about constants that the pairing relies on", "anchors": ["pairing/optate.go: sixuPlus2NAF", "pairing/constants.go"]}
{"id": "C66", "title": "Pairing with infinity and empty products", "statement": "Pair(P,O)=Pair(O,Q)=1 and PairingCheck of lists of such pairs is true.", "quantifier": "all points", "why_tests_cant": "all points", "anchors": ["pairing/optate.go: optimalAte", "pairing/bn256.go: PairingCheck"]}
{"id": "C67", "title": "Number pool discipline", "statement": "The number pool never hands out one number twice while it is in use: Get after any history of Get/Put of distinct live objects returns an object not currently held, and Count is the number held.", "quantifier": "all histories", "why_tests_cant": "histories", "anchors": ["pairing/bn256.go: bnPool"]}
{"id": "C68", "title": "addGateConstraint returns the sum", "statement": "addGateConstraint(a,b) returns a wire expression whose value is a+b in every witness, for all operands.", "quantifier": "all operand expressions and witnesses", "why_tests_cant": "depends on the gcds of the coefficients", "anchors": ["circuitcompiler/Programm.go: compile addGateConstraint", "circuitcompiler/factorHandling.go: extractConstant"]}
{"id": "C69", "title": "A computed witness satisfies any constraint system", "statement": "For every constraint system, also one not generated from a program, and every list of inputs: whenever the witness calculation (dense or sparse) returns without error, every constraint holds for the witness modulo Q and the witness starts with 1.", "quantifier": "all constraint systems and inputs", "why_tests_cant": "all systems and inputs", "anchors": ["circuitcompiler/ER1CS.go: CalculateWitness, CalculateSparseWitness"]}
{"id": "C70", "title": "Witness calculation accepts satisfiable inputs (sparse)", "statement": "If a source program evaluates on some inputs, then CalculateSparseWitness on its sparse constraint system with these inputs returns without error, for every randomizer, and the witness gives the returned expression the value of the program.", "quantifier": "all compiled straight-line programs, inputs and randomizers", "why_tests_cant": "needs inputs whose sums wrap around Q", "anchors": ["circuitcompiler/ER1CS.go: CalculateSparseWitness", "utils/sparsePolynomial.go: SparseScalarProduct"]}
{"id": "C71", "title": "Frobenius maps", "statement": "gfP6 and gfP12 Frobenius raise to the power p, FrobeniusP2 to the power p^2, gfP2 and gfP12 conjugation to the power p and p^6; the constants xiTo... are the powers of xi their names say.", "quantifier": "all field elements", "why_tests_cant": "identities over the whole field of p^12 elements", "anchors": ["pairing/constants.go", "pairing/gfp6.go: Frobenius, FrobeniusP2", "pairing/gfp12.go: Frobenius, FrobeniusP2, Conjugate"]}
{"id": "C72", "title": "Final exponentiation", "statement": "The final step of the pairing raises its argument to the power (p^12-1)/Order, so every pairing value v satisfies v^Order = 1.", "quantifier": "all field elements", "why_tests_cant": "identity over the whole field of p^12 elements", "anchors": ["pairing/optate.go: finalExponentiation"]}
{"id": "C73", "title": "PairingCheck decides the product equation", "statement": "PairingCheck(a,b) returns true exactly when the product of Pair(a[i],b[i]) is the one of GT, for all lists of group elements (also with points at infinity, also empty); it crashes when b is shorter than a.", "quantifier": "all lists of points", "why_tests_cant": "all lists of points", "anchors": ["pairing/bn256.go: Pair, PairingCheck", "pairing/optate.go: miller, finalExponentiation, optimalAte"]}
{"id": "C74", "title": "The pairing computes the optimal ate pairing", "statement": "For points P of G1 and Q of G2 generated by the generators, the Miller loop value is, up to a factor in F_p^2 (which the final exponentiation removes), the product of the lines of the Miller algorithm for (6u+2)Q and the two Frobenius lines evaluated at P; the result depends only on the points, not on their representation.", "quantifier": "all points, all representations", "why_tests_cant": "all points", "anchors": ["pairing/optate.go: lineFunctionAdd, lineFunctionDouble, mulLine, miller, optimalAte"]}
{"id": "C75", "title": "Non-degeneracy of the pairing", "statement": "Pair of the two generators is not one.", "quantifier": "the generators, hence a primitive element of GT", "why_tests_cant": "fixed fact the soundness of every proof check relies on; the theorem also shows that it has order exactly Order", "anchors": ["pairing/bn256.go: Pair", "pairing/constants.go"]}
{"id": "C76", "title": "GT operations and encoding", "statement": "GT.Add, Neg, ScalarMult are multiplication, inversion and powering of pairing values; Marshal/Unmarshal round-trips every value, equal values have equal encodings, and Unmarshal accepts only encodings of elements of GT.", "quantifier": "all GT values, all byte strings", "why_tests_cant": "all byte strings", "anchors": ["pairing/bn256.go: GT.Add, GT.Neg, GT.ScalarMult, GT.Marshal, GT.Unmarshal"]}
{"id": "C77", "title": "Bilinearity of the pairing", "statement": "Pair(A+B,Q) = Pair(A,Q)*Pair(B,Q), Pair(A,Q+R) = Pair(A,Q)*Pair(A,R) and Pair(kA,lQ) = Pair(A,Q)^(kl), where the sums, multiples, products and powers are those the package computes, for all points, scalars and representations.", "quantifier": "all points of G1 and G2, all non-negative scalars, all representations", "why_tests_cant": "all pairs of points of groups of 254 bit order; not even a single case can be checked against a definition", "anchors": ["pairing/bn256.go: Pair, G1.ScalarMult, G2.ScalarMult, GT.ScalarMult, GT.Add", "pairing/optate.go: miller, finalExponentiation"]}
{"id": "C78", "title": "The parser sees every token once", "statement": "NextToken and StartSync hand over every token of the text in order, except comments and repeated line breaks, followed by one end marker; the parser never sees two line breaks in a row.", "quantifier": "all program texts", "why_tests_cant": "all texts", "anchors": ["circuitcompiler/lexer.go: NextToken, StartSync", "circuitcompiler/parser.go: NewParser"]}
{"id": "C79", "title": "Reading a text synchronously ends", "statement": "StartSync returns for every text of the language; it never blocks on a full token channel.", "quantifier": "all program texts", "why_tests_cant": "depends on the ratio of tokens to bytes", "anchors": ["circuitcompiler/lexer.go: StartSync"]}
{"id": "C80", "title": "Blanks between tokens have no meaning", "statement": "Adding blanks or tabs outside quotes, at the start, at the end or between tokens, does not change the tokens of a text.", "quantifier": "all program texts", "why_tests_cant": "all texts and positions", "anchors": ["circuitcompiler/lexer.go: NumberState, IdentState and the other states"]}
{"id": "C81", "title": "Reading a text asynchronously delivers all tokens", "statement": "With Start, the lexer goroutine and the reader never deadlock, whatever the schedule and the size of the buffer; the reader gets all tokens in order and then the end.", "quantifier": "all texts, all schedules, all buffer sizes", "why_tests_cant": "all interleavings", "anchors": ["circuitcompiler/lexer.go: Start, NextToken, Emit"]}
{"id": "C82", "title": "Malformed brackets are rejected", "statement": "An expression whose round brackets do not match is rejected by the parser.", "quantifier": "all token lists", "why_tests_cant": "all nestings", "anchors": ["circuitcompiler/parser.go: stripOfBrackets, isSurroundedByBrackets, parseExpression"]}
{"id": "C83", "title": "Exactly one branch of an if chain is executed", "statement": "Of an if / else if / else chain, exactly the first branch whose condition holds is executed, otherwise the else branch.", "quantifier": "all programs", "why_tests_cant": "all conditions and branches", "anchors": ["circuitcompiler/Programm.go: compile (IF, IF_FUNCTION_CALL), execute", "circuitcompiler/circuit.go: preCompile (IF, ELSE)"]}
{"id": "C84", "title": "Gates of programs with functions, loops and arrays are sound", "statement": "For every program with user functions, static loops, assignments, arrays and calls of the builtins: every assignment of values to the wires that satisfies all gates the compiler produces makes the value of the returned expression the result of the source program on the input values (unless the program divides by zero on them).", "quantifier": "all programs of the source language, all wire assignments, every prime field of at least 64 bits", "why_tests_cant": "all programs and all wire values of a 254 bit field", "anchors": ["circuitcompiler/Programm.go: Execute, execute, compile", "circuitcompiler/circuit.go: preCompile, checkStaticCondition, flatCopy, contextCheck", "circuitcompiler/factorHandling.go: combineFunctions"]}
{"id": "C85", "title": "Gates of programs with functions, loops and arrays are complete", "statement": "If such a program returns a value on some inputs, then there are wire values that agree with the inputs and satisfy all gates, and give the returned expression that value.", "quantifier": "all programs, all inputs on which the program returns", "why_tests_cant": "all programs and inputs", "anchors": ["circuitcompiler/Programm.go: Execute, execute, compile", "circuitcompiler/circuit.go: preCompile, checkStaticCondition, flatCopy, contextCheck", "circuitcompiler/factorHandling.go: combineFunctions"]}
{"id": "C86", "title": "Constraint rows of programs with functions, loops and arrays", "statement": "A witness satisfies all rows of GatesToR1CS (GatesToSparseR1CS) of such a program only if it carries the result of the source program on the input entries of the witness, and if the source program returns a value then a satisfying witness with these inputs exists.", "quantifier": "all programs, all witnesses, all inputs, with and without randomizer", "why_tests_cant": "all programs and witnesses", "anchors": ["circuitcompiler/Programm.go: Execute, execute, compile", "circuitcompiler/circuit.go: preCompile, checkStaticCondition, flatCopy, contextCheck", "circuitcompiler/factorHandling.go: combineFunctions", "circuitcompiler/Programm.go: GatesToR1CS, GatesToSparseR1CS"]}
{"id": "C87", "title": "Calculated witnesses of programs with functions, loops and arrays are right", "statement": "If CalculateWitness (CalculateSparseWitness) returns a witness for the rows of such a program, it starts with one, carries the given inputs and the randomizer, satisfies all rows, and its value of the returned expression is the result of the source program on these inputs.", "quantifier": "all programs, inputs and randomizers", "why_tests_cant": "all programs and inputs", "anchors": ["circuitcompiler/Programm.go: Execute, execute, compile", "circuitcompiler/circuit.go: preCompile, checkStaticCondition, flatCopy, contextCheck", "circuitcompiler/factorHandling.go: combineFunctions", "circuitcompiler/ER1CS.go: CalculateWitness, CalculateSparseWitness"]}
{"id": "C88", "title": "Witnesses of programs with functions, loops and arrays are found", "statement": "If such a program returns a value on some inputs, then CalculateWitness (CalculateSparseWitness) on the rows with these inputs returns a witness without error, whatever randomizer is drawn, and the witness gives the returned expression that value.", "quantifier": "all programs, all inputs on which the program returns, all randomizers", "why_tests_cant": "all programs and inputs", "anchors": ["circuitcompiler/Programm.go: Execute, execute, compile", "circuitcompiler/circuit.go: preCompile, checkStaticCondition, flatCopy, contextCheck", "circuitcompiler/factorHandling.go: combineFunctions", "circuitcompiler/ER1CS.go: CalculateWitness, CalculateSparseWitness"]}
{"id": "C89", "title": "The parser hands over the program that was written", "statement": "For every program of functions, declarations, arrays, assignments, calls, nested loops and returns: written down as text, it is read as its tokens and nothing else, the parser finishes, and hands over exactly the constraints of its statements, in order, with every block closed; Parse reports exactly its public inputs after the one.", "quantifier": "all programs, any number of functions and statements, any nesting", "why_tests_cant": "all programs and nestings", "anchors": ["circuitcompiler/parser.go: Parse, statementMode, argumentParse, stackAllTokens", "circuitcompiler/lexer.go"]}
{"id": "C90", "title": "From source text to constraint rows", "statement": "If a source text (in any layout) spells a well-formed program and Parse, Execute and GatesToR1CS produce rows from it, then every witness of the rows carries the result of the program on the inputs in it, and every evaluation of the program has a witness.", "quantifier": "all source texts, all programs, all witnesses, all inputs", "why_tests_cant": "all texts, programs and field elements", "anchors": ["circuitcompiler/Programm.go: Execute, execute, compile", "circuitcompiler/circuit.go: preCompile, checkStaticCondition, flatCopy, contextCheck", "circuitcompiler/factorHandling.go: combineFunctions", "circuitcompiler/parser.go: Parse, statementMode", "circuitcompiler/lexer.go", "circuitcompiler/Programm.go: GatesToR1CS"]}
{"id": "C91", "title": "A calculated witness consists of field elements", "statement": "For every constraint system, every map of inputs that are reduced modulo the field order and every randomizer: if CalculateWitness (CalculateSparseWitness) returns a witness, it has one entry per wire and all entries are between 0 and the field order minus one.", "quantifier": "all constraint systems, inputs and randomizers", "why_tests_cant": "all systems and field elements", "anchors": ["circuitcompiler/ER1CS.go: CalculateWitness, CalculateSparseWitness"]}
{"id": "C92", "title": "From source text to an accepted proof", "statement": "If a source text that spells a well-formed program is compiled to rows and the program returns on some inputs, then the witness is calculated, keys and proof are generated for it on bn256, and the verifier accepts the proof for the public signals, that is, one and the values of the public inputs.", "quantifier": "all source texts, programs, inputs, randomizers and setup secrets", "why_tests_cant": "all texts, programs, field elements and curve points", "anchors": ["circuitcompiler/Programm.go: Execute, execute, compile", "circuitcompiler/circuit.go: preCompile, checkStaticCondition, flatCopy, contextCheck", "circuitcompiler/factorHandling.go: combineFunctions", "circuitcompiler/parser.go: Parse, statementMode", "circuitcompiler/lexer.go", "circuitcompiler/Programm.go: GatesToR1CS", "circuitcompiler/ER1CS.go: CalculateWitness", "zkSNARK/wol19.go: TrustedSetup, GenerateProofs, VerifyProof"]}
{"id": "C93", "title": "Accepted proofs come from runs of the source program", "statement": "If no run of the source program has the given public values, then a prover without knowledge of the setup secrets does not convince the verifier on bn256 of these public values.", "quantifier": "all source texts, programs, public values and provers", "why_tests_cant": "all texts, programs and provers", "anchors": ["circuitcompiler/Programm.go: Execute, execute, compile", "circuitcompiler/circuit.go: preCompile, checkStaticCondition, flatCopy, contextCheck", "circuitcompiler/factorHandling.go: combineFunctions", "circuitcompiler/parser.go: Parse, statementMode", "circuitcompiler/lexer.go", "circuitcompiler/Programm.go: GatesToR1CS", "zkSNARK/wol19.go: TrustedSetup, GenerateProofs, VerifyProof"]}
{"id": "C94", "title": "The trusted setup needs a private wire; shape of the key", "statement": "Whatever the groups and the secrets: if there are not more wires than public signals, GenerateTrustedSetup(_Sparse) gives no key; a key it gives has one public element per public signal, one private element per other wire and as many powers as there are constraints, and VerifyProof rejects every proof that comes with another number of public signals.", "quantifier": "all constraint systems, numbers of public signals, secrets, proofs and lists of signals", "why_tests_cant": "all systems and secrets", "anchors": ["zkSNARK/wol19.go: GenerateTrustedSetup, GenerateTrustedSetup_Sparse, VerifyProof"]}
{"id": "C95", "title": "A variable keeps the value assigned to it", "statement": "If an expression is assigned to a variable and the variable is read afterwards in the same scope, the result has for all values of the wires the value of the expression; reading it adds no constraint and changes no other variable.", "quantifier": "all expressions, all variables, all states of the compiler, all wire values", "why_tests_cant": "all expressions and states", "anchors": ["circuitcompiler/factorHandling.go: primitiveReturnfunction, combineFunctions", "circuitcompiler/Programm.go: compile, getsLoadedWith"]}
{"id": "C96", "title": "An `if` without `else` behaves like its chosen branch", "statement": "Whatever the values of the wires: a program with `if (l cmp r) { body }` in its main function computes what the program computes in which the `if` is replaced by its body (when the comparison of the values that l and r have at that place holds) or by nothing (otherwise).", "quantifier": "all programs, conditions, bodies, inputs and wire values", "why_tests_cant": "all programs and wire values", "anchors": ["circuitcompiler/circuit.go: preCompile (IF), checkStaticCondition", "circuitcompiler/Programm.go: compile (IF, IF_FUNCTION_CALL)"]}
{"id": "C97", "title": "A `return` in a loop ends the function", "statement": "When the body of a `for` loop reaches a `return`, the function that contains the loop ends and returns that value.", "quantifier": "all programs with loops, all numbers of rounds", "why_tests_cant": "all programs", "anchors": ["circuitcompiler/Programm.go: compile (FOR, FUNCTION_CALL), execute"]}
{"id": "C98", "title": "An `if` may be the last statement of a block", "statement": "The parser accepts a block whose last statement is an `if` without `else`, for every condition and every body.", "quantifier": "all conditions and bodies", "why_tests_cant": "all conditions and bodies", "anchors": ["circuitcompiler/parser.go: statementMode (IF)"]}
{"id": "C99", "title": "A `return` in an `if` ends the function", "statement": "Whatever the values of the wires: a program with `if (l cmp r) { body return e }` in its main function computes what the program computes that ends at this place with body and `return e` (when the comparison of the values that l and r have at that place holds), or that lacks the `if` (otherwise). The same holds in called functions, so that a recursive function with a base case computes what it says.", "quantifier": "all programs, conditions, bodies, inputs and wire values", "why_tests_cant": "all programs and wire values", "anchors": ["circuitcompiler/circuit.go: preCompile (IF), checkStaticCondition", "circuitcompiler/Programm.go: compile (IF, IF_FUNCTION_CALL, RETURN), execute"]}
{"id": "C100", "title": "The parser accepts every well-formed program", "statement": "Every source text that spells a program of the described language, of any size and nesting, in which names are declared before use and a name without an index is never an array, is accepted by Parse: no panic, and the public inputs are handed over.", "quantifier": "all programs, any number of functions and statements, any nesting, all texts", "why_tests_cant": "all programs and nestings", "anchors": ["circuitcompiler/parser.go: Parse, statementMode", "circuitcompiler/circuit.go: preCompile, contextCheck, RegisterFunctionFromConstraint", "circuitcompiler/lexer.go"]}
{"id": "C101", "title": "Whenever a program executes, its constraint rows exist", "statement": "If Execute returns the gates of a program, then GatesToR1CS and GatesToSparseR1CS with the public inputs and parameters of the program return constraint rows, with or without randomizer: every name in a gate has its place in the witness.", "quantifier": "all programs, all runs, with and without randomizer", "why_tests_cant": "all programs and runs", "anchors": ["circuitcompiler/Programm.go: Execute, GatesToR1CS, GatesToSparseR1CS"]}
{"id": "C102", "title": "Undeclared names are rejected", "statement": "For every program, well-formed or not: if a name is used without an index in a declaration, an assignment, a call or a return, and it is not a parameter, not declared before in the block or somewhere in a block around it, and not a function, then Parse panics; a declaration in another function or in an inner block does not help.", "quantifier": "all programs, any nesting, all names, all texts", "why_tests_cant": "all programs and nestings", "anchors": ["circuitcompiler/circuit.go: preCompile, contextCheck, contextCheckInputs, findConstraintInBloodline, findFunctionInBloodline", "circuitcompiler/parser.go: Parse"]}
{"id": "C103", "title": "Names declared twice and misplaced publics are rejected", "statement": "For every program, well-formed or not: Parse panics if two functions have one name, two parameters of a function have one name, a variable is declared again as a variable in its block (or has the name of a parameter), an array has the name of something declared before in its block, or public inputs are declared outside main.", "quantifier": "all programs, any nesting, all names, all texts", "why_tests_cant": "all programs and nestings", "anchors": ["circuitcompiler/circuit.go: preCompile, RegisterFunctionFromConstraint", "circuitcompiler/parser.go: Parse"]}
{"id": "C104", "title": "Compiling a text has one result", "statement": "What Parse, Execute and GatesToR1CS produce for the text of a program is determined by the text: public inputs, parameters, returned form, gates and rows are the same in every run that returns, however deep the recursion of the compiler may go; for an arbitrary text the same holds of Parse and Execute with given imported files.", "quantifier": "all programs, all texts that spell them, all recursion depths", "why_tests_cant": "all programs and depths", "anchors": ["circuitcompiler/parser.go: Parse", "circuitcompiler/Programm.go: Execute, compile, GatesToR1CS"]}
{"id": "C105", "title": "Test programs of the repository are right for all inputs", "statement": "Three test programs of testPrograms/codes.go (nested function calls, a loop over an array, calls as arguments), taken character by character: the text compiles, every witness of the constraint rows fixes the result to the value of the formula one expects (for instance the eighth Fibonacci number times x squared), and all inputs in the field have such a witness; the repository tests one or two inputs.", "quantifier": "all inputs in the scalar field of bn256, all witnesses", "why_tests_cant": "all field elements and witnesses", "anchors": ["testPrograms/codes.go: TestPrograms", "circuitcompiler/parser.go: Parse", "circuitcompiler/Programm.go: Execute, GatesToR1CS"]}
{"id": "C106", "title": "Test programs with recursion, closures and globals are right for all inputs", "statement": "Seven more test programs of testPrograms/codes.go, taken character by character: recursion with a base case, partly applied functions, functions in arrays and as arguments, recursive closures, global arrays, addGateConstraint, division of constants. The text compiles in one way, every witness of its rows fixes the result to the value of the expected formula, and all inputs have such a witness. The rows of the key ownership program (scalarBaseMultiply, equal) can be satisfied exactly for the inputs where the public key belongs to the private key.", "quantifier": "all inputs in the scalar field of bn256, all witnesses, all functions of scalarBaseMultiply that send 0 to 0", "why_tests_cant": "all field elements and witnesses", "anchors": ["testPrograms/codes.go: TestPrograms", "circuitcompiler/parser.go: Parse", "circuitcompiler/Programm.go: Execute, GatesToR1CS"]}
{"id": "C107", "title": "Comparison of arrays", "statement": "BigArraysEqual returns true exactly for arrays of the same length with equal entries, IsZeroArray exactly for arrays whose entries are all 0.", "quantifier": "all arrays of integers, all lengths", "why_tests_cant": "all arrays", "anchors": ["utils/polynomialField.go: BigArraysEqual, IsZeroArray"]}
{"id": "C108", "title": "A function that ends with a bare return can be used as a value", "statement": "A call of a function that ends with `return` and no expression has the value 1 wherever it is used: in an expression, stored in a variable, or as part of a stored sum.", "quantifier": "all programs with such functions, all inputs", "why_tests_cant": "all programs", "anchors": ["circuitcompiler/Programm.go: compile (RETURN, NumberToken)", "circuitcompiler/factorHandling.go: primitiveReturnfunction"]}
{"id": "C109", "title": "A declared function is what a call under its name runs", "statement": "A call f(a,b) in a program that declares func f runs the declared body, whatever the name f is; the Boolean functions AND, NAND, OR, NOT and the operators && and || that the lexer reads compute the Boolean function of their operands.", "quantifier": "all programs, all function names, all inputs", "why_tests_cant": "all programs and names", "anchors": ["circuitcompiler/Programm.go: compile (FUNCTION_CALL, BooleanOperatorToken)", "circuitcompiler/lexer.go: BooleanOperatorToken"]}
{"id": "C110", "title": "The compiler finishes on systems of polynomial equations", "statement": "A program whose main consists of any number of statements equal(l, r) and a return, where all expressions are made of parameters, elements of array parameters with literal indices, decimal numbers other than 0, parentheses, + and *, compiles without a panic; in every witness of its rows the equations hold and the result is the value of the returned expression, and all inputs that satisfy the equations have a witness - provided each expression, evaluated in the natural numbers with 1 for every parameter, is less than the modulus, the hashes that name gates have 16 digits and different gates get different names. With the number 0 it can panic: (0*x)*y.", "quantifier": "all such programs: any number of equations, expressions of every size and nesting, all hashes with 16 digits, all moduli, all inputs and witnesses", "why_tests_cant": "all expression shapes and sizes", "anchors": ["circuitcompiler/Programm.go: Execute, compile", "circuitcompiler/factorHandling.go: addFactors, mulFactors, extractConstant, extractGCD", "circuitcompiler/Programm.go: resolveArrayName, completeFunction, GatesToR1CS"]}
{"id": "C111", "title": "The circuit is no larger than the source", "statement": "For the programs of C110, Execute returns at most one gate for each multiplication sign, one for each equal statement and one for the returned form. GatesToR1CS and GatesToSparseR1CS make one row of each gate, and one more for the randomizer.", "quantifier": "all such programs: any number of equations, expressions of every size and nesting, all hashes with 16 digits, all moduli; for the rows all lists of gates", "why_tests_cant": "the bound is over programs of all sizes", "anchors": ["circuitcompiler/Programm.go: Execute, compile, gateContainer.Add, completeFunction, GatesToR1CS, GatesToSparseR1CS"]}
{"id": "C112", "title": "Systems of equations: solutions are accepted, nothing else is", "statement": "For the text of a program of C110, compiled without randomizer over the bn256 order: inputs that solve the equations have a calculated witness that begins with the public values, and the key and proof generated from it are accepted; if no inputs with given public values solve the equations, a prover that combines the elements of the published key linearly convinces the verifier only for a fraction of the secrets of the order of the size of the source divided by the group order.", "quantifier": "all such texts, all inputs, all public values, all secrets of the setup, all linear provers that leave F trivial", "why_tests_cant": "all texts, inputs, secrets and provers", "anchors": ["circuitcompiler/parser.go: Parse", "circuitcompiler/Programm.go: Execute, GatesToR1CS", "circuitcompiler/ER1CS.go: CalculateWitness", "zkSNARK/wol19.go: TrustedSetup, GenerateProofs, VerifyProof"]}
