import Verif.Model.Groth16
import Verif.Spec.Chars

/-!
# The generator of the Solidity verifier (src/helpers/groth16/ethereum.rs)
-/

namespace Fawkes.Groth16

set_option maxRecDepth 20000 in
/-- src/helpers/groth16/ethereum.rs:6-197: the template. -/
def template : List Char := chars! "pragma solidity ^0.6.0;

library Pairing {
    uint256 constant PRIME_Q = 21888242871839275222246405745257275088696311157297823662689037894645226208583;

    struct G1Point {
        uint256 X;
        uint256 Y;
    }

    // Encoding of field elements is: X[0] * z + X[1]
    struct G2Point {
        uint256[2] X;
        uint256[2] Y;
    }

    /*
        * @return The negation of p, i.e. p.plus(p.negate()) should be zero.
        */
    function negate(G1Point memory p) internal pure returns (G1Point memory) {
        // The prime q in the base field F_q for G1
        if (p.X == 0 && p.Y == 0) {
            return G1Point(0, 0);
        } else {
            return G1Point(p.X, PRIME_Q - (p.Y % PRIME_Q));
        }
    }

    /*
        * @return r the sum of two points of G1
        */
    function plus(
        G1Point memory p1,
        G1Point memory p2
    ) internal view returns (G1Point memory r) {
        uint256[4] memory input;
        input[0] = p1.X;
        input[1] = p1.Y;
        input[2] = p2.X;
        input[3] = p2.Y;
        bool success;

        // solium-disable-next-line security/no-inline-assembly
        assembly {
            success := staticcall(sub(gas(), 2000), 6, input, 0xc0, r, 0x60)
            // Use \"invalid\" to make gas estimation work
            switch success case 0 { invalid() }
        }

        require(success, \"pairing-add-failed\");
    }

    /*
        * @return r the product of a point on G1 and a scalar, i.e.
        *         p == p.scalar_mul(1) and p.plus(p) == p.scalar_mul(2) for all
        *         points p.
        */
    function scalar_mul(G1Point memory p, uint256 s) internal view returns (G1Point memory r) {
        uint256[3] memory input;
        input[0] = p.X;
        input[1] = p.Y;
        input[2] = s;
        bool success;
        // solium-disable-next-line security/no-inline-assembly
        assembly {
            success := staticcall(sub(gas(), 2000), 7, input, 0x80, r, 0x60)
            // Use \"invalid\" to make gas estimation work
            switch success case 0 { invalid() }
        }
        require(success, \"pairing-mul-failed\");
    }

    /* @return The result of computing the pairing check
        *         e(p1[0], p2[0]) *  .... * e(p1[n], p2[n]) == 1
        *         For example,
        *         pairing([P1(), P1().negate()], [P2(), P2()]) should return true.
        */
    function pairing(
        G1Point memory a1,
        G2Point memory a2,
        G1Point memory b1,
        G2Point memory b2,
        G1Point memory c1,
        G2Point memory c2,
        G1Point memory d1,
        G2Point memory d2
    ) internal view returns (bool) {
        G1Point[4] memory p1 = [a1, b1, c1, d1];
        G2Point[4] memory p2 = [a2, b2, c2, d2];

        uint256 inputSize = 24;
        uint256[] memory input = new uint256[](inputSize);

        for (uint256 i = 0; i < 4; i++) {
            uint256 j = i * 6;
            input[j + 0] = p1[i].X;
            input[j + 1] = p1[i].Y;
            input[j + 2] = p2[i].X[0];
            input[j + 3] = p2[i].X[1];
            input[j + 4] = p2[i].Y[0];
            input[j + 5] = p2[i].Y[1];
        }

        uint256[1] memory out;
        bool success;

        // solium-disable-next-line security/no-inline-assembly
        assembly {
            success := staticcall(sub(gas(), 2000), 8, add(input, 0x20), mul(inputSize, 0x20), out, 0x20)
            // Use \"invalid\" to make gas estimation work
            switch success case 0 { invalid() }
        }

        require(success, \"pairing-opcode-failed\");

        return out[0] != 0;
    }
}

contract Verifier {
    uint256 constant SNARK_SCALAR_FIELD = 21888242871839275222246405745257275088548364400416034343698204186575808495617;
    uint256 constant PRIME_Q = 21888242871839275222246405745257275088696311157297823662689037894645226208583;
    using Pairing for *;

    struct VerifyingKey {
        Pairing.G1Point alfa1;
        Pairing.G2Point beta2;
        Pairing.G2Point gamma2;
        Pairing.G2Point delta2;
        Pairing.G1Point[<%vk_ic_length%>] IC;
    }

    struct Proof {
        Pairing.G1Point A;
        Pairing.G2Point B;
        Pairing.G1Point C;
    }

    function verifyingKey() internal pure returns (VerifyingKey memory vk) {
        vk.alfa1 = Pairing.G1Point(<%vk_alfa1%>);
        vk.beta2 = Pairing.G2Point(<%vk_beta2%>);
        vk.gamma2 = Pairing.G2Point(<%vk_gamma2%>);
        vk.delta2 = Pairing.G2Point(<%vk_delta2%>);
        <%vk_ic_pts%>
    }

    /*
        * @returns Whether the proof is valid given the hardcoded verifying key
        *          above and the public inputs
        */
    function verifyProof(
        uint256[8] memory p,
        uint256[<%vk_input_length%>] memory input
    ) public view returns (bool) {
 
        // Make sure that each element in the proof is less than the prime q
        for (uint8 i = 0; i < p.length; i++) {
            require(p[i] < PRIME_Q, \"verifier-proof-element-gte-prime-q\");
        }

        Proof memory _proof;
        _proof.A = Pairing.G1Point(p[0], p[1]);
        _proof.B = Pairing.G2Point([p[2], p[3]], [p[4], p[5]]);
        _proof.C = Pairing.G1Point(p[6], p[7]);

        VerifyingKey memory vk = verifyingKey();

        // Compute the linear combination vk_x
        Pairing.G1Point memory vk_x = Pairing.G1Point(0, 0);
        vk_x = Pairing.plus(vk_x, vk.IC[0]);

        // Make sure that every input is less than the snark scalar field
        for (uint256 i = 0; i < input.length; i++) {
            require(input[i] < SNARK_SCALAR_FIELD, \"verifier-gte-snark-scalar-field\");
            vk_x = Pairing.plus(vk_x, Pairing.scalar_mul(vk.IC[i + 1], input[i]));
        }

        return Pairing.pairing(
            Pairing.negate(_proof.A),
            _proof.B,
            vk.alfa1,
            vk.beta2,
            vk_x,
            vk.gamma2,
            _proof.C,
            vk.delta2
        );
    }
}
"

/-- The scan of `str::replace`: `skip` counts the characters of a match still to be passed over. -/
def replaceScan (pat rep : List Char) : (skip : Nat) → List Char → List Char
  | _, [] => []
  | 0, c :: cs =>
    if pat.isPrefixOf (c :: cs) then rep ++ replaceScan pat rep (pat.length - 1) cs
    else c :: replaceScan pat rep 0 cs
  | skip + 1, _ :: cs => replaceScan pat rep skip cs

/-- Rust's `str::replace` for a non-empty pattern: every leftmost, non-overlapping occurrence is replaced. -/
def replace (s pat rep : List Char) : List Char := replaceScan pat rep 0 s

variable {q : Nat}

/-- src/helpers/groth16/ethereum.rs:198-200: `stringify_g1` -/
def stringifyG1 (p : G1PointData (ZMod q)) : Except Panic (List Char) := do
  let x ← Num.serdeSerialize p.p0
  let y ← Num.serdeSerialize p.p1
  pure (x ++ chars! ", " ++ y)

/-- src/helpers/groth16/ethereum.rs:202-211: `stringify_g2` -/
def stringifyG2 (p : G2PointData (ZMod q)) : Except Panic (List Char) := do
  let x0 ← Num.serdeSerialize p.p0.1
  let x1 ← Num.serdeSerialize p.p0.2
  let y0 ← Num.serdeSerialize p.p1.1
  let y1 ← Num.serdeSerialize p.p1.2
  pure (chars! "[" ++ x0 ++ chars! ", " ++ x1 ++ chars! "], [" ++ y0 ++ chars! ", " ++ y1 ++ chars! "]")

/-- src/helpers/groth16/ethereum.rs:221-230: the loop that builds the assignments of the IC points. -/
def icLoop : (i : Nat) → (vi : List Char) → List (G1PointData (ZMod q)) → Except Panic (List Char)
  | _, vi, [] => pure vi
  | i, vi, p :: ps => do
    let s ← stringifyG1 p
    icLoop (i + 1) (vi ++ (if vi.isEmpty then [] else chars! "        ") ++ chars! "vk.IC[" ++ Num.decimal i ++
      chars! "] = Pairing.G1Point(" ++ s ++ chars! ");\n") ps

/-- `vk.ic.len() - 1` (src/helpers/groth16/ethereum.rs:219), in a build with or without overflow checks. -/
def predUsize (checked : Bool) (n : Nat) : Except Panic Nat :=
  if n = 0 then (if checked then .error .assertion else .ok (2 ^ 64 - 1)) else .ok (n - 1)

/-- src/helpers/groth16/ethereum.rs:5-233: `generate_sol_data`.  `checked` says whether the build has overflow checks;
without them `vk.ic.len() - 1` wraps around for a key without IC points. -/
def generateSolData (checked : Bool) (vk : VKData (ZMod q)) : Except Panic (List Char) := do
  let tpl := template
  let tpl := replace tpl (chars! "<%vk_alfa1%>") (← stringifyG1 vk.alphaG1)
  let tpl := replace tpl (chars! "<%vk_beta2%>") (← stringifyG2 vk.betaG2)
  let tpl := replace tpl (chars! "<%vk_gamma2%>") (← stringifyG2 vk.gammaG2)
  let tpl := replace tpl (chars! "<%vk_delta2%>") (← stringifyG2 vk.deltaG2)
  let tpl := replace tpl (chars! "<%vk_ic_length%>") (Num.decimal vk.ic.length)
  let n ← predUsize checked vk.ic.length
  let tpl := replace tpl (chars! "<%vk_input_length%>") (Num.decimal n)
  let vi ← icLoop 0 [] vk.ic
  let tpl := replace tpl (chars! "<%vk_ic_pts%>") vi
  pure tpl

end Fawkes.Groth16
