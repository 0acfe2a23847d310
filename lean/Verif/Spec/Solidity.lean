import Verif.Spec.Chars
import Mathlib.Data.Nat.Digits.Defs

/-!
# Specification: the text of the generated contract
-/

namespace Fawkes.Groth16

/-- The decimal numeral of `n`, without leading zeros. -/
def numeral (n : Nat) : List Char := Nat.toDigits 10 n

/-- `x, y` -/
def g1Text (x y : Nat) : List Char := numeral x ++ chars! ", " ++ numeral y

/-- `[x₀, x₁], [y₀, y₁]` -/
def g2Text (x y : Nat × Nat) : List Char :=
  chars! "[" ++ numeral x.1 ++ chars! ", " ++ numeral x.2 ++ chars! "], [" ++ numeral y.1 ++ chars! ", " ++ numeral y.2 ++
    chars! "]"

/-- The assignment of the IC point number `i`, one line, indented except for the first. -/
def icLine (i : Nat) (x y : Nat) : List Char :=
  (if i = 0 then [] else chars! "        ") ++ chars! "vk.IC[" ++ numeral i ++ chars! "] = Pairing.G1Point(" ++ g1Text x y ++
    chars! ");\n"

/-- One line for every IC point, in order. -/
def icText (pts : List (Nat × Nat)) : List Char := (pts.mapIdx fun i p => icLine i p.1 p.2).flatten

set_option maxRecDepth 20000 in
/-- The text of the contract, part 1. -/
def part1 : List Char := chars! "pragma solidity ^0.6.0;

library Pairing {
    uint256 constant PRIME_Q = 21888242871839275222246405745257275088696311157297823662689037894645226208583;

    struct G1Point {
        uint256 X;
        uint256 Y;
    }

    // Encoding of field elements is: X[0] * z + X[1]
    struct G2Point {
        uint256[2] X;
        uint256[2] Y;
    }

    /*
        * @return The negation of p, i.e. p.plus(p.negate()) should be zero.
        */
    function negate(G1Point memory p) internal pure returns (G1Point memory) {
        // The prime q in the base field F_q for G1
        if (p.X == 0 && p.Y == 0) {
            return G1Point(0, 0);
        } else {
            return G1Point(p.X, PRIME_Q - (p.Y % PRIME_Q));
        }
    }

    /*
        * @return r the sum of two points of G1
        */
    function plus(
        G1Point memory p1,
        G1Point memory p2
    ) internal view returns (G1Point memory r) {
        uint256[4] memory input;
        input[0] = p1.X;
        input[1] = p1.Y;
        input[2] = p2.X;
        input[3] = p2.Y;
        bool success;

        // solium-disable-next-line security/no-inline-assembly
        assembly {
            success := staticcall(sub(gas(), 2000), 6, input, 0xc0, r, 0x60)
            // Use \"invalid\" to make gas estimation work
            switch success case 0 { invalid() }
        }

        require(success, \"pairing-add-failed\");
    }

    /*
        * @return r the product of a point on G1 and a scalar, i.e.
        *         p == p.scalar_mul(1) and p.plus(p) == p.scalar_mul(2) for all
        *         points p.
        */
    function scalar_mul(G1Point memory p, uint256 s) internal view returns (G1Point memory r) {
        uint256[3] memory input;
        input[0] = p.X;
        input[1] = p.Y;
        input[2] = s;
        bool success;
        // solium-disable-next-line security/no-inline-assembly
        assembly {
            success := staticcall(sub(gas(), 2000), 7, input, 0x80, r, 0x60)
            // Use \"invalid\" to make gas estimation work
            switch success case 0 { invalid() }
        }
        require(success, \"pairing-mul-failed\");
    }

    /* @return The result of computing the pairing check
        *         e(p1[0], p2[0]) *  .... * e(p1[n], p2[n]) == 1
        *         For example,
        *         pairing([P1(), P1().negate()], [P2(), P2()]) should return true.
        */
    function pairing(
        G1Point memory a1,
        G2Point memory a2,
        G1Point memory b1,
        G2Point memory b2,
        G1Point memory c1,
        G2Point memory c2,
        G1Point memory d1,
        G2Point memory d2
    ) internal view returns (bool) {
        G1Point[4] memory p1 = [a1, b1, c1, d1];
        G2Point[4] memory p2 = [a2, b2, c2, d2];

        uint256 inputSize = 24;
        uint256[] memory input = new uint256[](inputSize);

        for (uint256 i = 0; i < 4; i++) {
            uint256 j = i * 6;
            input[j + 0] = p1[i].X;
            input[j + 1] = p1[i].Y;
            input[j + 2] = p2[i].X[0];
            input[j + 3] = p2[i].X[1];
            input[j + 4] = p2[i].Y[0];
            input[j + 5] = p2[i].Y[1];
        }

        uint256[1] memory out;
        bool success;

        // solium-disable-next-line security/no-inline-assembly
        assembly {
            success := staticcall(sub(gas(), 2000), 8, add(input, 0x20), mul(inputSize, 0x20), out, 0x20)
            // Use \"invalid\" to make gas estimation work
            switch success case 0 { invalid() }
        }

        require(success, \"pairing-opcode-failed\");

        return out[0] != 0;
    }
}

contract Verifier {
    uint256 constant SNARK_SCALAR_FIELD = 21888242871839275222246405745257275088548364400416034343698204186575808495617;
    uint256 constant PRIME_Q = 21888242871839275222246405745257275088696311157297823662689037894645226208583;
    using Pairing for *;

    struct VerifyingKey {
        Pairing.G1Point alfa1;
        Pairing.G2Point beta2;
        Pairing.G2Point gamma2;
        Pairing.G2Point delta2;
        Pairing.G1Point["

set_option maxRecDepth 20000 in
/-- The text of the contract, part 2. -/
def part2 : List Char := chars! "] IC;
    }

    struct Proof {
        Pairing.G1Point A;
        Pairing.G2Point B;
        Pairing.G1Point C;
    }

    function verifyingKey() internal pure returns (VerifyingKey memory vk) {
        vk.alfa1 = Pairing.G1Point("

set_option maxRecDepth 20000 in
/-- The text of the contract, part 3. -/
def part3 : List Char := chars! ");
        vk.beta2 = Pairing.G2Point("

set_option maxRecDepth 20000 in
/-- The text of the contract, part 4. -/
def part4 : List Char := chars! ");
        vk.gamma2 = Pairing.G2Point("

set_option maxRecDepth 20000 in
/-- The text of the contract, part 5. -/
def part5 : List Char := chars! ");
        vk.delta2 = Pairing.G2Point("

set_option maxRecDepth 20000 in
/-- The text of the contract, part 6. -/
def part6 : List Char := chars! ");
        "

set_option maxRecDepth 20000 in
/-- The text of the contract, part 7. -/
def part7 : List Char := chars! "
    }

    /*
        * @returns Whether the proof is valid given the hardcoded verifying key
        *          above and the public inputs
        */
    function verifyProof(
        uint256[8] memory p,
        uint256["

set_option maxRecDepth 20000 in
/-- The text of the contract, part 8. -/
def part8 : List Char := chars! "] memory input
    ) public view returns (bool) {
 
        // Make sure that each element in the proof is less than the prime q
        for (uint8 i = 0; i < p.length; i++) {
            require(p[i] < PRIME_Q, \"verifier-proof-element-gte-prime-q\");
        }

        Proof memory _proof;
        _proof.A = Pairing.G1Point(p[0], p[1]);
        _proof.B = Pairing.G2Point([p[2], p[3]], [p[4], p[5]]);
        _proof.C = Pairing.G1Point(p[6], p[7]);

        VerifyingKey memory vk = verifyingKey();

        // Compute the linear combination vk_x
        Pairing.G1Point memory vk_x = Pairing.G1Point(0, 0);
        vk_x = Pairing.plus(vk_x, vk.IC[0]);

        // Make sure that every input is less than the snark scalar field
        for (uint256 i = 0; i < input.length; i++) {
            require(input[i] < SNARK_SCALAR_FIELD, \"verifier-gte-snark-scalar-field\");
            vk_x = Pairing.plus(vk_x, Pairing.scalar_mul(vk.IC[i + 1], input[i]));
        }

        return Pairing.pairing(
            Pairing.negate(_proof.A),
            _proof.B,
            vk.alfa1,
            vk.beta2,
            vk_x,
            vk.gamma2,
            _proof.C,
            vk.delta2
        );
    }
}
"

/-- The contract, given what fills its gaps. -/
def contract (alfa1 beta2 gamma2 delta2 icLength inputLength icPts : List Char) : List Char :=
  part1 ++ icLength ++ part2 ++ alfa1 ++ part3 ++ beta2 ++ part4 ++ gamma2 ++ part5 ++ delta2 ++ part6 ++ icPts ++ part7 ++ inputLength ++ part8

end Fawkes.Groth16
