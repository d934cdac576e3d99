cd /verif/lean
for d in Model Spec Proofs Props Lite; do ls Verif/$d/*.lean 2>/dev/null; done | sed 's/\.lean$//; s#/#.#g; s/^/import /' > Verif.lean
