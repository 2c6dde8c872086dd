#!/usr/bin/env python3
"""Writes MANIFEST.json; checks that every named theorem exists in lean/Verif."""
import json, re, glob, sys
C = []
def claim(p, status, thms, note=""):
    C.append({"property": p, "status": status, "theorems": thms, "note": note})
B = "Mango.Bank."
claim("C01", "proved", [B+"C01_deposit_withdraw_no_borrow", B+"C01_public"], "all banks with positive indexes (positivity is invariant: C02_totals), all amounts")
claim("C02", "proved", [B+"C02_totals", B+"C02_totals_single"], "all histories of all operations incl. several banks; loss socialization assumed smaller than deposits")
claim("C03", "proved", [B+"C03_deposit_rounding"], "any starting position, borrowed or not")
claim("C04", "proved", [B+"C04_withdraw_excess"], "")
claim("C05", "proved", [B+"C05_window_counter", B+"C05_check_sound", B+"C05_check_refuses", B+"C05_check_exact", B+"C05_withdraw_event", B+"C05_deposit_event"], "counter over every chronological event sequence; which event each call feeds; check soundness")
claim("C06", "proved", [B+"C06_check_sound", B+"C06_headroom_is_safe", B+"C06_check_exact", B+"C06_headroom_maximal"], "")
claim("C07", "proved", [B+"C07_transfer"], "")
claim("C08", "proved", [B+"C08_compute_index_mono", B+"C08_history_mono"], "deposit index only up to loss socialization, which lowers it by design (C12)")
claim("C09", "proved", [B+"C09_interest_balance", B+"C09_borrow_interest", B+"C09_passed_on"], "elapsed time at most one hour, the cap applied by the instruction")
claim("C10", "proved", [B+"C10_linear", B+"C10_rate_monotone", B+"C10_rate_bounded", B+"C10_rate_total", B+"C10_zero_kink_aborts"], "monotone for ordered rates, bounded, value at zero; computable except exactly when the first kink and the utilization are zero (accepted by verify, division by zero), for rates up to 2^30 and scaling up to 2^40")
claim("C11", "proved", [B+"C11_between", B+"C11_linear", B+"C11_monotone", B+"C11_completion_invisible", B+"C11_configured"], "")
claim("C12", "proved", ["Mango.Liquidation.C12_conditions", "Mango.Liquidation.C12_insurance", "Mango.Liquidation.C12_insurance_first", "Mango.Liquidation.C12_amounts_exact", "Mango.Liquidation.C12_socialize", "Mango.Liquidation.C12_ledger", B+"C12_single_bank", B+"C12_index_can_become_negative", B+"C12_break_leaves_bank_behind"], "any number of banks; the index stays positive for losses below all deposits. Two machine-checked counterexamples show what does not hold: the code does not check that bound, and banks after the one that completes the credit keep the old index")
claim("C47", "proved", [B+"C47_solvent", B+"C47_slack_pos"], "socialization only for single-bank tokens")
exec(open("/verif/tools/more_claims.py").read()) if glob.glob("/verif/tools/more_claims.py") else None
names = set()
for f in glob.glob("/verif/lean/Verif/**/*.lean", recursive=True):
    ns = []
    for line in open(f):
        m = re.match(r"namespace (\S+)", line)
        if m: ns.append(m.group(1))
        m = re.match(r"end (\S+)", line)
        if m and ns and ns[-1] == m.group(1): ns.pop()
        m = re.match(r"(?:@\[[^\]]*\]\s*)?(?:private |protected )?theorem (\S+)", line)
        if m: names.add(".".join(ns + [m.group(1)]))
bad = [t for c in C for t in c["theorems"] if t not in names]
props = [json.loads(l)["id"] for l in open("/verif/properties.jsonl")]
print("missing theorems:", bad)
print("props without claim:", [p for p in props if p not in {c["property"] for c in C}])
print("claims without prop:", [c["property"] for c in C if c["property"] not in props])
C.sort(key=lambda c: c["property"])
json.dump({"claims": C}, open("/verif/MANIFEST.json", "w"), indent=1)
sys.exit(1 if bad else 0)
