import Verif.Arith

/-
Error numbers, `dex/src/error.rs`: what a client sees of a failure is one 32-bit number.
-/

namespace Serum

/-- `DexErrorCode`, `error.rs` 34-118, in the order of declaration. -/
inductive ErrorCode where
  | invalidMarketFlags
  | invalidAskFlags
  | invalidBidFlags
  | invalidQueueLength
  | ownerAccountNotProvided
  | consumeEventsQueueFailure
  | wrongCoinVault
  | wrongPcVault
  | wrongCoinMint
  | wrongPcMint
  | coinVaultProgramId
  | pcVaultProgramId
  | coinMintProgramId
  | pcMintProgramId
  | wrongCoinMintSize
  | wrongPcMintSize
  | wrongCoinVaultSize
  | wrongPcVaultSize
  | uninitializedVault
  | uninitializedMint
  | coinMintUninitialized
  | pcMintUninitialized
  | wrongMint
  | wrongVaultOwner
  | vaultHasDelegate
  | alreadyInitialized
  | wrongAccountDataAlignment
  | wrongAccountDataPaddingLength
  | wrongAccountHeadPadding
  | wrongAccountTailPadding
  | requestQueueEmpty
  | eventQueueTooSmall
  | slabTooSmall
  | badVaultSignerNonce
  | insufficientFunds
  | splAccountProgramId
  | splAccountLen
  | wrongFeeDiscountAccountOwner
  | wrongFeeDiscountMint
  | coinPayerProgramId
  | pcPayerProgramId
  | clientIdNotFound
  | tooManyOpenOrders
  | fakeErrorSoWeDontChangeNumbers
  | borrowError
  | wrongOrdersAccount
  | wrongBidsAccount
  | wrongAsksAccount
  | wrongRequestQueueAccount
  | wrongEventQueueAccount
  | requestQueueFull
  | eventQueueFull
  | marketIsDisabled
  | wrongSigner
  | transferFailed
  | clientOrderIdIsZero
  | wrongRentSysvarAccount
  | rentNotProvided
  | ordersNotRentExempt
  | orderNotFound
  | orderNotYours
  | wouldSelfTrade
  | invalidOpenOrdersAuthority
  | orderMaxTimestampExceeded
  | minAmountNotMet
  | unknown
  | assertionError
  deriving DecidableEq, Repr

/-- `u32::from(DexErrorCode)` (`IntoPrimitive`): the discriminants of `error.rs` 36-117, where a variant
without a number follows its predecessor. -/
def ErrorCode.toNum : ErrorCode → Nat
  | .invalidMarketFlags => 0
  | .invalidAskFlags => 1
  | .invalidBidFlags => 2
  | .invalidQueueLength => 3
  | .ownerAccountNotProvided => 4
  | .consumeEventsQueueFailure => 5
  | .wrongCoinVault => 6
  | .wrongPcVault => 7
  | .wrongCoinMint => 8
  | .wrongPcMint => 9
  | .coinVaultProgramId => 10
  | .pcVaultProgramId => 11
  | .coinMintProgramId => 12
  | .pcMintProgramId => 13
  | .wrongCoinMintSize => 14
  | .wrongPcMintSize => 15
  | .wrongCoinVaultSize => 16
  | .wrongPcVaultSize => 17
  | .uninitializedVault => 18
  | .uninitializedMint => 19
  | .coinMintUninitialized => 20
  | .pcMintUninitialized => 21
  | .wrongMint => 22
  | .wrongVaultOwner => 23
  | .vaultHasDelegate => 24
  | .alreadyInitialized => 25
  | .wrongAccountDataAlignment => 26
  | .wrongAccountDataPaddingLength => 27
  | .wrongAccountHeadPadding => 28
  | .wrongAccountTailPadding => 29
  | .requestQueueEmpty => 30
  | .eventQueueTooSmall => 31
  | .slabTooSmall => 32
  | .badVaultSignerNonce => 33
  | .insufficientFunds => 34
  | .splAccountProgramId => 35
  | .splAccountLen => 36
  | .wrongFeeDiscountAccountOwner => 37
  | .wrongFeeDiscountMint => 38
  | .coinPayerProgramId => 39
  | .pcPayerProgramId => 40
  | .clientIdNotFound => 41
  | .tooManyOpenOrders => 42
  | .fakeErrorSoWeDontChangeNumbers => 43
  | .borrowError => 44
  | .wrongOrdersAccount => 45
  | .wrongBidsAccount => 46
  | .wrongAsksAccount => 47
  | .wrongRequestQueueAccount => 48
  | .wrongEventQueueAccount => 49
  | .requestQueueFull => 50
  | .eventQueueFull => 51
  | .marketIsDisabled => 52
  | .wrongSigner => 53
  | .transferFailed => 54
  | .clientOrderIdIsZero => 55
  | .wrongRentSysvarAccount => 56
  | .rentNotProvided => 57
  | .ordersNotRentExempt => 58
  | .orderNotFound => 59
  | .orderNotYours => 60
  | .wouldSelfTrade => 61
  | .invalidOpenOrdersAuthority => 62
  | .orderMaxTimestampExceeded => 63
  | .minAmountNotMet => 64
  | .unknown => 1000
  | .assertionError => 1001

/-- `DexErrorCode::from(u32)` (`FromPrimitive`): any other number is the `#[num_enum(default)]` variant
`AssertionError`, `error.rs` 113-117. -/
def ErrorCode.ofNum : Nat → ErrorCode
  | 0 => .invalidMarketFlags
  | 1 => .invalidAskFlags
  | 2 => .invalidBidFlags
  | 3 => .invalidQueueLength
  | 4 => .ownerAccountNotProvided
  | 5 => .consumeEventsQueueFailure
  | 6 => .wrongCoinVault
  | 7 => .wrongPcVault
  | 8 => .wrongCoinMint
  | 9 => .wrongPcMint
  | 10 => .coinVaultProgramId
  | 11 => .pcVaultProgramId
  | 12 => .coinMintProgramId
  | 13 => .pcMintProgramId
  | 14 => .wrongCoinMintSize
  | 15 => .wrongPcMintSize
  | 16 => .wrongCoinVaultSize
  | 17 => .wrongPcVaultSize
  | 18 => .uninitializedVault
  | 19 => .uninitializedMint
  | 20 => .coinMintUninitialized
  | 21 => .pcMintUninitialized
  | 22 => .wrongMint
  | 23 => .wrongVaultOwner
  | 24 => .vaultHasDelegate
  | 25 => .alreadyInitialized
  | 26 => .wrongAccountDataAlignment
  | 27 => .wrongAccountDataPaddingLength
  | 28 => .wrongAccountHeadPadding
  | 29 => .wrongAccountTailPadding
  | 30 => .requestQueueEmpty
  | 31 => .eventQueueTooSmall
  | 32 => .slabTooSmall
  | 33 => .badVaultSignerNonce
  | 34 => .insufficientFunds
  | 35 => .splAccountProgramId
  | 36 => .splAccountLen
  | 37 => .wrongFeeDiscountAccountOwner
  | 38 => .wrongFeeDiscountMint
  | 39 => .coinPayerProgramId
  | 40 => .pcPayerProgramId
  | 41 => .clientIdNotFound
  | 42 => .tooManyOpenOrders
  | 43 => .fakeErrorSoWeDontChangeNumbers
  | 44 => .borrowError
  | 45 => .wrongOrdersAccount
  | 46 => .wrongBidsAccount
  | 47 => .wrongAsksAccount
  | 48 => .wrongRequestQueueAccount
  | 49 => .wrongEventQueueAccount
  | 50 => .requestQueueFull
  | 51 => .eventQueueFull
  | 52 => .marketIsDisabled
  | 53 => .wrongSigner
  | 54 => .transferFailed
  | 55 => .clientOrderIdIsZero
  | 56 => .wrongRentSysvarAccount
  | 57 => .rentNotProvided
  | 58 => .ordersNotRentExempt
  | 59 => .orderNotFound
  | 60 => .orderNotYours
  | 61 => .wouldSelfTrade
  | 62 => .invalidOpenOrdersAuthority
  | 63 => .orderMaxTimestampExceeded
  | 64 => .minAmountNotMet
  | 1000 => .unknown
  | _ => .assertionError

/-- `SourceFileId`, `error.rs` 120-129. -/
inductive SourceFile where
  | state
  | matching
  | critbit
  deriving DecidableEq, Repr

/-- The discriminants of `SourceFileId`, `error.rs` 124-128. -/
def SourceFile.id : SourceFile → Nat
  | .state => 1
  | .matching => 2
  | .critbit => 3

/-- `AssertionError`, `error.rs` 7-11. -/
structure AssertionError where
  line : BitVec 16
  file : SourceFile
  deriving DecidableEq, Repr

/-- `assertion_error!()`, `error.rs` 132-141: `line!() as u16` keeps the low 16 bits. -/
def assertionAt (file : SourceFile) (line : Nat) : AssertionError := ⟨BitVec.ofNat 16 line, file⟩

/-- `u32::from(AssertionError)`, `error.rs` 13-17. -/
def AssertionError.toNum (e : AssertionError) : BitVec 32 :=
  e.line.zeroExtend 32 + (BitVec.ofNat 32 e.file.id <<< 24)

/-- `ProgramError`, as far as the program produces it: a custom number or one of Solana's own errors. -/
inductive ProgErr where
  | custom (n : BitVec 32)
  | builtin (k : Nat)
  deriving DecidableEq, Repr

/-- `DexError`, `error.rs` 26-32. -/
inductive DexErr where
  | program (e : ProgErr)
  | code (c : ErrorCode)
  deriving DecidableEq, Repr

/-- `DexError::from(AssertionError)`, `error.rs` 19-24. -/
def DexErr.ofAssertion (e : AssertionError) : DexErr := .program (.custom e.toNum)

/-- `ProgramError::from(DexError)`, `error.rs` 188-195. -/
def DexErr.toProg : DexErr → ProgErr
  | .program e => e
  | .code c => .custom (BitVec.ofNat 32 c.toNum)

/-- The failures of the model by their variant of `DexErrorCode`; `none` for what has no variant of its
own: assertions, Solana's errors, panics. -/
def Err.code : Err → Option ErrorCode
  | .panic => none
  | .assertion => none
  | .programError => none
  | .invalidMarketFlags => some .invalidMarketFlags
  | .slabTooSmall => some .slabTooSmall
  | .requestQueueEmpty => some .requestQueueEmpty
  | .eventQueueTooSmall => some .eventQueueTooSmall
  | .insufficientFunds => some .insufficientFunds
  | .wrongCoinVault => some .wrongCoinVault
  | .wrongPcVault => some .wrongPcVault
  | .wrongCoinMint => some .wrongCoinMint
  | .wrongPcMint => some .wrongPcMint
  | .wrongFeeDiscountAccountOwner => some .wrongFeeDiscountAccountOwner
  | .wrongFeeDiscountMint => some .wrongFeeDiscountMint
  | .clientIdNotFound => some .clientIdNotFound
  | .tooManyOpenOrders => some .tooManyOpenOrders
  | .wrongOrdersAccount => some .wrongOrdersAccount
  | .wrongBidsAccount => some .wrongBidsAccount
  | .wrongAsksAccount => some .wrongAsksAccount
  | .wrongRequestQueueAccount => some .wrongRequestQueueAccount
  | .wrongEventQueueAccount => some .wrongEventQueueAccount
  | .eventQueueFull => some .eventQueueFull
  | .marketIsDisabled => some .marketIsDisabled
  | .transferFailed => some .transferFailed
  | .rentNotProvided => some .rentNotProvided
  | .ownerAccountNotProvided => some .ownerAccountNotProvided
  | .ordersNotRentExempt => some .ordersNotRentExempt
  | .orderNotFound => some .orderNotFound
  | .orderNotYours => some .orderNotYours
  | .wouldSelfTrade => some .wouldSelfTrade
  | .invalidOpenOrdersAuthority => some .invalidOpenOrdersAuthority
  | .orderMaxTimestampExceeded => some .orderMaxTimestampExceeded
  | .minAmountNotMet => some .minAmountNotMet

end Serum
