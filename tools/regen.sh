#!/bin/sh
python3 /verif/tools/plans.py && python3 /verif/tools/manifest.py && python3 /verif/tools/design.py
